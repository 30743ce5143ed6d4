import Verif.Model.Memo

/-!
# C35: memoised distances and azimuths
-/

set_option autoImplicit false

namespace MM.Memo

variable {K C V : Type} [DecidableEq K]

/-- The queries of a history use only these coordinate systems. -/
def Uses (S : C → Prop) (es : List (Event K C)) : Prop := ∀ e ∈ es, ∀ c k, e = .ask c k → S c

/-- All entries have the value of the direct computation. -/
def Valid (direct : C → K → V) (S : C → Prop) (st : State K V) : Prop :=
  ∀ k v, find (st.cache.getD []) k = some v → ∃ c, S c ∧ v = direct c k

theorem find_cons (k k' : K) (v : V) (m : List (K × V)) : find ((k', v) :: m) k = if k' = k then some v else find m k := by
  unfold find
  rw [List.find?_cons]
  by_cases h : k' = k <;> simp [h]

theorem step_valid (direct : C → K → V) (S : C → Prop) (st : State K V) (e : Event K C) (hs : ∀ c k, e = .ask c k → S c)
    (h : Valid direct S st) : Valid direct S (step direct st e).2 := by
  cases e with
  | enable => exact h
  | disable => exact h
  | reset => intro k v hf; simp [step, find] at hf
  | ask c k =>
    simp only [step, query]
    split
    · split
      · exact h
      · intro k' v' hf
        simp only [Option.getD_some] at hf
        rw [find_cons] at hf
        split at hf
        · next heq =>
          subst heq
          simp only [Option.some.injEq] at hf
          exact ⟨c, hs c k rfl, hf.symm⟩
        · exact h k' v' hf
    · exact h

theorem run_valid (direct : C → K → V) (S : C → Prop) (es : List (Event K C)) : ∀ st : State K V, Uses S es → Valid direct S st →
    Valid direct S (run direct st es) := by
  induction es with
  | nil => intro st _ h; exact h
  | cons e es ih =>
    intro st hu h
    exact ih _ (fun e' he' => hu e' (List.mem_cons_of_mem _ he'))
      (step_valid direct S st e (hu e List.mem_cons_self) h)

/-- **C35.**  In a thread whose queries all use coordinate systems with the same distances, every answer is the direct value,
whatever came before.
Missing from the full property: queries of one thread in different coordinate systems (`other_system_fails`). -/
theorem memo_partial (direct : C → K → V) (S : C → Prop) (hS : ∀ c c' k, S c → S c' → direct c k = direct c' k)
    (es : List (Event K C)) (hu : Uses S es) (c : C) (hc : S c) (k : K) :
    (query direct (run direct start es) c k).1 = direct c k := by
  have hv := run_valid direct S es start hu (by intro k v hf; simp [start, find] at hf)
  simp only [query]
  split
  · split
    · next v hf =>
      obtain ⟨c', hc', rfl⟩ := hv k v hf
      exact hS c' c k hc' hc
    · rfl
  · rfl

/-- Without the cache any coordinate systems may be mixed. -/
theorem memo_disabled (direct : C → K → V) (es : List (Event K C)) (hd : ∀ e ∈ es, e ≠ .enable) (c : C) (k : K) :
    (query direct (run direct start es) c k).1 = direct c k := by
  have : ∀ (es : List (Event K C)) (st : State K V), (∀ e ∈ es, e ≠ .enable) → st.use = false → (run direct st es).use = false := by
    intro es
    induction es with
    | nil => intro st _ h; exact h
    | cons e es ih =>
      intro st he h
      refine ih _ (fun e' he' => he e' (List.mem_cons_of_mem _ he')) ?_
      cases e with
      | enable => exact absurd rfl (he _ List.mem_cons_self)
      | disable => rfl
      | reset => exact h
      | ask c k => simp [step, query, h]
  rw [query, this es start hd rfl]
  rfl

/-- Two coordinate systems with different distances of the same coordinates. -/
def twoSystems (c : Bool) (k : Nat × Nat) : Nat := if c then 111 * (k.2 - k.1) else k.2 - k.1

example : (query twoSystems (run twoSystems start [.ask false (1, 5), .enable, .ask true (3, 4), .reset, .ask false (1, 5)])
    false (1, 5)).1 = 4 := by decide

example : Uses (· = true) ([.ask true (3, 4), .enable, .ask true (1, 5)] : List (Event (Nat × Nat) Bool)) := by
  intro e he c k h
  simp only [List.mem_cons, List.not_mem_nil, or_false] at he
  rcases he with rfl | rfl | rfl <;> simp_all

/-- **C35 fails** for two coordinate systems in one thread: the cached value of the other one is returned. -/
theorem other_system_fails : (query twoSystems (run twoSystems start [.enable, .ask true (1, 5)]) false (1, 5)).1 = 444 ∧
    twoSystems false (1, 5) = 4 := by decide

end MM.Memo
