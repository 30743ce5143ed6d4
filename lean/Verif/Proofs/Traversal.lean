import Verif.Model.Traversal
import Mathlib.Logic.Relation
import Mathlib.Data.Fintype.Card
import Mathlib.Data.List.Perm.Basic
import Mathlib.Data.List.Nodup

/-! # Invariants of BFS and DFS (helper lemmas for C05, C24) -/

set_option autoImplicit false
set_option linter.unusedSectionVars false

namespace MM.Traversal

open Relation

variable {V : Type} [DecidableEq V]
variable {push : V → List V → List V} {edges : V → List V} {v0 : List V} {start : V}

/-- One edge to a vertex that was not visited before the search. -/
def Adj (edges : V → List V) (v0 : List V) (a b : V) : Prop := b ∈ edges a ∧ b ∉ v0

structure Inv (edges : V → List V) (v0 : List V) (start : V) (s : State V) : Prop where
  start_mem : start ∈ s.discovered
  vis : ∀ x, x ∈ s.visited ↔ x ∈ s.discovered ∨ x ∈ v0
  nodup : s.discovered.Nodup
  sound : ∀ x ∈ s.discovered, ReflTransGen (Adj edges v0) start x
  perm : (s.finished ++ s.frontier).Perm s.discovered
  closed : ∀ x ∈ s.finished, ∀ t ∈ edges x, t ∈ s.visited

structure Mid (edges : V → List V) (v0 : List V) (start v : V) (done : List V) (s : State V) : Prop where
  start_mem : start ∈ s.discovered
  cur : v ∈ s.discovered
  vis : ∀ x, x ∈ s.visited ↔ x ∈ s.discovered ∨ x ∈ v0
  nodup : s.discovered.Nodup
  sound : ∀ x ∈ s.discovered, ReflTransGen (Adj edges v0) start x
  perm : (s.finished ++ v :: s.frontier).Perm s.discovered
  closed : ∀ x ∈ s.finished, ∀ t ∈ edges x, t ∈ s.visited
  closedV : ∀ t ∈ done, t ∈ s.visited

theorem inv_init (h : start ∉ v0) : Inv edges v0 start (init v0 start) where
  start_mem := by simp [init]
  vis := by simp [init]
  nodup := by simp [init]
  sound := by intro x hx; simp [init] at hx; subst hx; exact .refl
  perm := by simp [init]
  closed := by simp [init]

theorem mid_edge (hpush : ∀ t q, (push t q).Perm (t :: q)) {v : V} {done : List V} {s : State V}
    (h : Mid edges v0 start v done s) (t : V) (ht : t ∈ edges v) :
    Mid edges v0 start v (done ++ [t]) (doEdge push s t) := by
  unfold doEdge
  split
  · rename_i hv
    have hV : ∀ x ∈ done ++ [t], x ∈ s.visited := by
      intro x hx
      rcases List.mem_append.1 hx with hx | hx
      · exact h.closedV x hx
      · simp at hx; subst hx; exact hv
    exact { h with closedV := hV }
  · rename_i hv
    have hnd : t ∉ s.discovered := fun hd => hv ((h.vis t).2 (.inl hd))
    have hn0 : t ∉ v0 := fun hd => hv ((h.vis t).2 (.inr hd))
    constructor
    · simp [h.start_mem]
    · simp [h.cur]
    · intro x
      simp [h.vis]
      tauto
    · simp only [List.nodup_append, h.nodup, List.nodup_cons, List.not_mem_nil, not_false_eq_true,
        List.nodup_nil, and_self, List.mem_cons, or_false, ne_eq, true_and]
      intro a ha b hb hab
      subst hb; subst hab; exact hnd ha
    · intro x hx
      rcases List.mem_append.1 hx with hx | hx
      · exact h.sound x hx
      · simp at hx; subst hx
        exact (h.sound v h.cur).tail ⟨ht, hn0⟩
    · have h1 : (s.finished ++ v :: push t s.frontier).Perm (s.finished ++ v :: t :: s.frontier) :=
        ((hpush t s.frontier).cons v).append_left _
      have h2 : (s.finished ++ v :: t :: s.frontier).Perm (t :: (s.finished ++ v :: s.frontier)) := by
        have : s.finished ++ v :: t :: s.frontier = (s.finished ++ [v]) ++ t :: s.frontier := by simp
        rw [this]
        refine List.perm_middle.trans ?_
        simp
      have h3 : (t :: (s.finished ++ v :: s.frontier)).Perm (s.discovered ++ [t]) :=
        (h.perm.cons t).trans (List.perm_append_comm (l₁ := [t]))
      exact (h1.trans h2).trans h3
    · intro x hx t' ht'
      exact List.mem_cons_of_mem _ (h.closed x hx t' ht')
    · intro x hx
      rcases List.mem_append.1 hx with hx | hx
      · exact List.mem_cons_of_mem _ (h.closedV x hx)
      · simp at hx; subst hx; simp

theorem mid_foldl (hpush : ∀ t q, (push t q).Perm (t :: q)) {v : V} (es : List V) :
    ∀ (done : List V) (s : State V), Mid edges v0 start v done s → (∀ t ∈ es, t ∈ edges v) →
      Mid edges v0 start v (done ++ es) (es.foldl (doEdge push) s) := by
  induction es with
  | nil => intro done s h _; simpa using h
  | cons t es ih =>
    intro done s h hes
    have := ih (done ++ [t]) _ (mid_edge hpush h t (hes t (by simp))) (fun t' h' => hes t' (by simp [h']))
    simpa using this

theorem foldl_finished (es : List V) : ∀ s : State V, (es.foldl (doEdge push) s).finished = s.finished := by
  induction es with
  | nil => intro s; rfl
  | cons t es ih =>
    intro s
    rw [List.foldl_cons, ih]
    unfold doEdge
    split <;> rfl

theorem inv_step (hpush : ∀ t q, (push t q).Perm (t :: q)) {s t : State V} (h : Inv edges v0 start s)
    (hs : step push edges s = some t) : Inv edges v0 start t := by
  unfold step at hs
  split at hs
  · cases hs
  · rename_i v rest hfr
    cases hs
    have hm0 : Mid edges v0 start v [] { s with frontier := rest } := by
      constructor
      · exact h.start_mem
      · exact h.perm.subset (by simp [hfr])
      · exact h.vis
      · exact h.nodup
      · exact h.sound
      · simpa [hfr] using h.perm
      · exact h.closed
      · simp
    have hm := mid_foldl hpush (edges v) [] _ hm0 (fun _ h => h)
    generalize (edges v).foldl (doEdge push) { s with frontier := rest } = s2 at hm
    constructor
    · exact hm.start_mem
    · exact hm.vis
    · exact hm.nodup
    · exact hm.sound
    · simpa using hm.perm
    · intro x hx
      rcases List.mem_append.1 hx with hx | hx
      · exact hm.closed x hx
      · simp at hx; subst hx
        intro t ht
        exact hm.closedV t (by simpa using ht)

theorem step_finished {s t : State V} (hs : step push edges s = some t) :
    t.finished.length = s.finished.length + 1 := by
  unfold step at hs
  split at hs
  · cases hs
  · cases hs; simp [foldl_finished]

theorem run_spec [Fintype V] (hpush : ∀ t q, (push t q).Perm (t :: q)) :
    ∀ (n : Nat) (s : State V), Inv edges v0 start s → Fintype.card V ≤ n + s.finished.length →
      ∃ t, run push edges n s = some t ∧ Inv edges v0 start t ∧ t.frontier = [] := by
  intro n
  induction n with
  | zero =>
    intro s h hn
    have hlen : (s.finished ++ s.frontier).length ≤ Fintype.card V :=
      (h.perm.nodup_iff.2 h.nodup).length_le_card
    have hfr : s.frontier = [] := by
      rw [List.length_append] at hlen
      exact List.eq_nil_of_length_eq_zero (by omega)
    exact ⟨s, by simp [run, hfr], h, hfr⟩
  | succ n ih =>
    intro s h hn
    unfold run
    cases hs : step push edges s with
    | none =>
      refine ⟨s, rfl, h, ?_⟩
      unfold step at hs
      split at hs
      · assumption
      · cases hs
    | some t =>
      exact ih t (inv_step hpush h hs) (by rw [step_finished hs]; omega)

theorem complete {s : State V} (h : Inv edges v0 start s) (hfr : s.frontier = []) (x : V)
    (hx : ReflTransGen (Adj edges v0) start x) : x ∈ s.discovered := by
  induction hx with
  | refl => exact h.start_mem
  | @tail b c _ hab ih =>
    have hf : b ∈ s.finished := by
      have := h.perm.symm.subset ih
      simpa [hfr] using this
    rcases (h.vis _).1 (h.closed _ hf _ hab.1) with r | r
    · exact r
    · exact absurd r hab.2

end MM.Traversal
