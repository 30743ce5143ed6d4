import Verif.Model.Tags
import Mathlib.Data.List.Basic

/-!
# C36: identifiers of tags; C53: retried allocations; C54, C57: tags of elements
-/

set_option autoImplicit false
set_option linter.unusedSectionVars false

namespace MM.Tags

/-! ### C53: retries -/

section Retry

variable {S A : Type}

/-- `k` attempts failed from `s` on, the storage grew after each; then the state is `t`. -/
inductive Failed (attempt : S → S × Option A) (grow : S → S) : Nat → S → S → Prop
  | none (s : S) : Failed attempt grow 0 s s
  | one {k : Nat} {s t u : S} (h : attempt s = (t, none)) (hs : Failed attempt grow k (grow t) u) : Failed attempt grow (k + 1) s u

theorem failed_unique {attempt : S → S × Option A} {grow : S → S} {k : Nat} {s t u : S} (h : Failed attempt grow k s t)
    (h' : Failed attempt grow k s u) : t = u := by
  induction h with
  | none s => cases h'; rfl
  | one he _ ih =>
    cases h' with
    | one he' hs' =>
      rw [he] at he'
      simp only [Prod.mk.injEq, and_true] at he'
      subst he'
      exact ih hs'

/-- **C53.**  The operation succeeds with a result exactly when, after at most `r` failed attempts with growth after each, an
attempt gives this result; no attempt follows.  It throws exactly when all `r + 1` attempts fail, after growing `r + 1` times. -/
theorem retry_spec (attempt : S → S × Option A) (grow : S → S) (r : Nat) : ∀ (s t : S),
    (∀ a, retryAlloc attempt grow r s = (t, some a) ↔ ∃ k, k ≤ r ∧ ∃ u, Failed attempt grow k s u ∧ attempt u = (t, some a)) ∧
    (retryAlloc attempt grow r s = (t, none) ↔ Failed attempt grow (r + 1) s t) := by
  induction r with
  | zero =>
    intro s t
    constructor
    · intro a
      rw [retryAlloc]
      constructor
      · intro h
        refine ⟨0, Nat.le_refl _, s, .none s, ?_⟩
        split at h
        · next t' a' h1 => rw [h1]; exact h
        · simp at h
      · rintro ⟨k, hk, u, hf, h⟩
        have : k = 0 := by omega
        subst this
        cases hf
        rw [h]
    · rw [retryAlloc]
      constructor
      · intro h
        split at h
        · simp at h
        · next t' h1 =>
          simp only [Prod.mk.injEq, and_true] at h
          subst h
          exact .one h1 (.none _)
      · intro h
        cases h with
        | one h1 hs =>
          cases hs
          rw [h1]
  | succ r ih =>
    intro s t
    constructor
    · intro a
      rw [retryAlloc]
      constructor
      · intro h
        split at h
        · next t' a' h1 => exact ⟨0, by omega, s, .none s, by rw [h1]; exact h⟩
        · next t' h1 =>
          obtain ⟨k, hk, u, hf, h2⟩ := ((ih (grow t') t).1 a).1 h
          exact ⟨k + 1, by omega, u, .one h1 hf, h2⟩
      · rintro ⟨k, hk, u, hf, h⟩
        cases hf with
        | none => rw [h]
        | one h1 hs =>
          rw [h1]
          exact ((ih _ t).1 a).2 ⟨_, by omega, u, hs, h⟩
    · rw [retryAlloc]
      constructor
      · intro h
        split at h
        · simp at h
        · next t' h1 => exact .one h1 ((ih (grow t') t).2.1 h)
      · intro h
        cases h with
        | one h1 hs =>
          rw [h1]
          exact (ih _ t).2.2 hs

/-- Two failures, then success; with one retry that is an exception. -/
example : (retryAlloc (fun s : Nat => if s < 2 then (s, none) else (s + 10, some s)) (· + 1) 2 0) = (12, some 2) ∧
    (retryAlloc (fun s : Nat => if s < 2 then (s, none) else (s + 10, some s)) (· + 1) 1 0) = (2, (none : Option Nat)) := by decide

end Retry

/-! ### Maps -/

section Maps

variable {K V : Type} [DecidableEq K]

theorem find_append (m : List (K × V)) (k k' : K) (v : V) :
    find (m ++ [(k, v)]) k' = (find m k').or (if k = k' then some v else none) := by
  unfold find
  rw [List.find?_append]
  cases hm : m.find? (fun e => decide (e.1 = k')) with
  | some e => simp
  | none => by_cases h : k = k' <;> simp [h]

theorem find_none_iff (m : List (K × V)) (k : K) : find m k = none ↔ ∀ e ∈ m, e.1 ≠ k := by
  unfold find
  simp

theorem erase_absent {m : List (K × V)} {k : K} (h : find m k = none) : erase m k = m := by
  rw [find_none_iff] at h
  exact List.filter_eq_self.2 (fun e he => by simp [h e he])

theorem erase_new {m : List (K × V)} {k : K} (v : V) (h : find m k = none) : erase (m ++ [(k, v)]) k = m := by
  have h' := erase_absent h
  unfold erase at h' ⊢
  rw [List.filter_append, h']
  simp

theorem emplace_new {m : List (K × V)} {k : K} (v : V) (h : find m k = none) : emplace m k v = m ++ [(k, v)] := by
  simp [emplace, h]

/-- The two maps are inverse to each other, identifiers are below the size. -/
def Inverse (fwd : List (K × Nat)) (bwd : List (Nat × K)) : Prop :=
  (∀ x n, find fwd x = some n ↔ find bwd n = some x) ∧ ∀ n x, find bwd n = some x → n < fwd.length

theorem intern_spec {fwd : List (K × Nat)} {bwd : List (Nat × K)} (h : Inverse fwd bwd) (x : K) (fails : List Bool) :
    Inverse (intern fwd bwd x fails).fwd (intern fwd bwd x fails).bwd ∧
    (∀ n y, find bwd n = some y → find (intern fwd bwd x fails).bwd n = some y) ∧
    (∀ i, (intern fwd bwd x fails).id = some i → find (intern fwd bwd x fails).bwd i = some x) ∧
    ((intern fwd bwd x fails).id = none → (intern fwd bwd x fails).fwd = fwd ∧ (intern fwd bwd x fails).bwd = bwd) := by
  unfold intern
  cases hf : find fwd x with
  | some i =>
    refine ⟨h, fun _ _ h => h, ?_, by simp⟩
    intro j hj
    simp only [Option.some.injEq] at hj
    subst hj
    exact (h.1 x i).1 hf
  | none =>
    have hb : find bwd fwd.length = none := by
      cases hb : find bwd fwd.length with
      | none => rfl
      | some y => exact absurd (h.2 _ _ hb) (Nat.lt_irrefl _)
    simp only [emplace_new _ hf, emplace_new _ hb, erase_new _ hf, erase_absent hf, erase_absent hb]
    by_cases h1 : (verdict fails).1 = true
    · simp only [h1, if_true]
      exact ⟨h, fun _ _ h => h, by simp, by simp⟩
    · by_cases h2 : (verdict (verdict fails).2).1 = true
      · simp only [h1, h2, if_true, Bool.false_eq_true, if_false]
        exact ⟨h, fun _ _ h => h, by simp, by simp⟩
      · simp only [h1, h2, Bool.false_eq_true, if_false]
        refine ⟨⟨?_, ?_⟩, ?_, ?_, by simp⟩
        · intro y n
          rw [find_append, find_append]
          by_cases hxy : x = y
          · subst hxy
            rw [hf]
            by_cases hn : fwd.length = n
            · subst hn
              simp [hb]
            · have hne : find bwd n ≠ some x := fun h' => by rw [(h.1 x n).2 h'] at hf; simp at hf
              cases hbn : find bwd n with
              | none => simp [hn]
              | some z => simp [hn]; intro hzx; subst hzx; exact absurd hbn hne
          · by_cases hn : fwd.length = n
            · subst hn
              have hne : find fwd y ≠ some fwd.length := fun h' => by rw [(h.1 y _).1 h'] at hb; simp at hb
              rw [hb]
              cases hfy : find fwd y with
              | none => simp [hxy]
              | some z => simp [hxy]; intro hz; subst hz; exact absurd hfy hne
            · have := h.1 y n
              cases hfy : find fwd y <;> cases hbn : find bwd n <;> simp_all
        · intro n y hn
          rw [find_append] at hn
          rw [List.length_append]
          cases hbn : find bwd n with
          | some z => have := h.2 n z hbn; simp; omega
          | none =>
            rw [hbn] at hn
            by_cases he : fwd.length = n
            · simp; omega
            · simp [he] at hn
        · intro n y hn
          rw [find_append, hn]
          rfl
        · intro i hi
          simp only [Option.some.injEq] at hi
          subst hi
          rw [find_append, hb]
          simp

end Maps

/-! ### C36: identifiers -/

/-- The maps belong together; while not finalized, they can also be used in the other direction. -/
structure Inv (st : State) : Prop where
  key : st.finalized = false → Inverse st.keyId st.idKey
  value : st.finalized = false → Inverse st.valueId st.idValue
  pair : st.finalized = false → Inverse st.ids st.tags
  keyInj : ∀ n m x, find st.idKey n = some x → find st.idKey m = some x → n = m
  valueInj : ∀ n m x, find st.idValue n = some x → find st.idValue m = some x → n = m
  pairInj : ∀ n m x, find st.tags n = some x → find st.tags m = some x → n = m
  closed : ∀ n p, find st.tags n = some p → (find st.idKey p.1).isSome ∧ (find st.idValue p.2).isSome

theorem Inverse.inj {K : Type} [DecidableEq K] {fwd : List (K × Nat)} {bwd : List (Nat × K)} (h : Inverse fwd bwd) :
    ∀ n m x, find bwd n = some x → find bwd m = some x → n = m := by
  intro n m x h1 h2
  have e1 := (h.1 x n).2 h1
  have e2 := (h.1 x m).2 h2
  rw [e1] at e2
  exact Option.some.inj e2

/-- What was there stays there. -/
structure Keeps (st st' : State) : Prop where
  key : ∀ n x, find st.idKey n = some x → find st'.idKey n = some x
  value : ∀ n x, find st.idValue n = some x → find st'.idValue n = some x
  pair : ∀ n x, find st.tags n = some x → find st'.tags n = some x
  fin : st'.finalized = st.finalized

theorem Keeps.refl (st : State) : Keeps st st := ⟨fun _ _ h => h, fun _ _ h => h, fun _ _ h => h, rfl⟩

theorem Keeps.trans {a b c : State} (h : Keeps a b) (h' : Keeps b c) : Keeps a c :=
  ⟨fun n x hx => h'.key n x (h.key n x hx), fun n x hx => h'.value n x (h.value n x hx),
    fun n x hx => h'.pair n x (h.pair n x hx), h'.fin.trans h.fin⟩

/-- The pair of identifiers decodes to key and value. -/
def Decodes (st : State) (n : Nat) (k v : String) : Prop :=
  ∃ p, find st.tags n = some p ∧ find st.idKey p.1 = some k ∧ find st.idValue p.2 = some v

theorem pairStep_spec {st : State} (hi : Inv st) (hf : st.finalized = false) {ki vi : Nat} {k v : String}
    (hk : find st.idKey ki = some k) (hv : find st.idValue vi = some v) (fails : List Bool) :
    Inv (pairStep st ki vi fails).1.1 ∧ Keeps st (pairStep st ki vi fails).1.1 ∧
    ∀ n, (pairStep st ki vi fails).2 = some n → Decodes (pairStep st ki vi fails).1.1 n k v := by
  obtain ⟨h1, h2, h3, h4⟩ := intern_spec (hi.pair hf) (ki, vi) fails
  simp only [pairStep]
  refine ⟨⟨hi.key, hi.value, fun _ => h1, hi.keyInj, hi.valueInj, h1.inj, ?_⟩,
    ⟨fun _ _ h => h, fun _ _ h => h, h2, rfl⟩, fun n hn => ⟨(ki, vi), h3 n hn, hk, hv⟩⟩
  intro n p hp
  simp only at hp
  cases hid : (intern st.ids st.tags (ki, vi) fails).id with
  | none =>
    rw [(h4 hid).2] at hp
    exact hi.closed n p hp
  | some i =>
    have hii := h3 i hid
    by_cases hpp : p = (ki, vi)
    · subst hpp
      simp [hk, hv]
    · -- an old entry
      have : find st.tags n = some p := by
        have hfwd := (h1.1 p n).2 hp
        unfold intern at hfwd hid
        cases hfi : find st.ids (ki, vi) with
        | some j =>
          rw [hfi] at hfwd
          exact ((hi.pair hf).1 p n).1 hfwd
        | none =>
          rw [hfi] at hfwd hid
          simp only at hfwd hid
          split at hid
          · simp at hid
          · split at hid
            · simp at hid
            · next h5 h6 =>
              simp only [h5, h6, Bool.false_eq_true, if_false] at hfwd
              rw [emplace_new _ hfi, find_append, if_neg (fun h => hpp h.symm), Option.or_none] at hfwd
              exact ((hi.pair hf).1 p n).1 hfwd
      exact hi.closed n p this

theorem isSome_keeps {K V : Type} [DecidableEq K] {m m' : List (K × V)} (h : ∀ n x, find m n = some x → find m' n = some x) {n : K}
    (hs : (find m n).isSome) : (find m' n).isSome := by
  obtain ⟨x, hx⟩ := Option.isSome_iff_exists.1 hs
  rw [h n x hx]
  rfl

theorem valueStep_spec {st : State} (hi : Inv st) (hf : st.finalized = false) {ki : Nat} {k : String}
    (hk : find st.idKey ki = some k) (v : String) (fails : List Bool) :
    Inv (valueStep st ki v fails).1.1 ∧ Keeps st (valueStep st ki v fails).1.1 ∧
    ∀ n, (valueStep st ki v fails).2 = some n → Decodes (valueStep st ki v fails).1.1 n k v := by
  obtain ⟨h1, h2, h3, h4⟩ := intern_spec (hi.value hf) v fails
  have hinv : Inv { st with valueId := (intern st.valueId st.idValue v fails).fwd, idValue := (intern st.valueId st.idValue v fails).bwd } :=
    ⟨hi.key, fun _ => h1, hi.pair, hi.keyInj, h1.inj, hi.pairInj,
      fun n p hp => ⟨(hi.closed n p hp).1, isSome_keeps h2 (hi.closed n p hp).2⟩⟩
  have hkeep : Keeps st { st with valueId := (intern st.valueId st.idValue v fails).fwd, idValue := (intern st.valueId st.idValue v fails).bwd } :=
    ⟨fun _ _ h => h, h2, fun _ _ h => h, rfl⟩
  simp only [valueStep]
  cases hid : (intern st.valueId st.idValue v fails).id with
  | none => exact ⟨hinv, hkeep, by simp⟩
  | some vi =>
    simp only
    obtain ⟨g1, g2, g3⟩ := pairStep_spec hinv hf (ki := ki) (vi := vi) hk (h3 vi hid) (intern st.valueId st.idValue v fails).rest
    exact ⟨g1, hkeep.trans g2, g3⟩

theorem attempt_spec {st : State} (hi : Inv st) (hf : st.finalized = false) (k v : String) (fails : List Bool) :
    Inv (attempt k v (st, fails)).1.1 ∧ Keeps st (attempt k v (st, fails)).1.1 ∧
    ∀ n, (attempt k v (st, fails)).2 = some n → Decodes (attempt k v (st, fails)).1.1 n k v := by
  obtain ⟨h1, h2, h3, h4⟩ := intern_spec (hi.key hf) k fails
  have hinv : Inv { st with keyId := (intern st.keyId st.idKey k fails).fwd, idKey := (intern st.keyId st.idKey k fails).bwd } :=
    ⟨fun _ => h1, hi.value, hi.pair, h1.inj, hi.valueInj, hi.pairInj,
      fun n p hp => ⟨isSome_keeps h2 (hi.closed n p hp).1, (hi.closed n p hp).2⟩⟩
  have hkeep : Keeps st { st with keyId := (intern st.keyId st.idKey k fails).fwd, idKey := (intern st.keyId st.idKey k fails).bwd } :=
    ⟨h2, fun _ _ h => h, fun _ _ h => h, rfl⟩
  simp only [attempt]
  cases hid : (intern st.keyId st.idKey k fails).id with
  | none => exact ⟨hinv, hkeep, by simp⟩
  | some ki =>
    simp only
    obtain ⟨g1, g2, g3⟩ := valueStep_spec hinv hf (ki := ki) (h3 ki hid) v (intern st.keyId st.idKey k fails).rest
    exact ⟨g1, hkeep.trans g2, g3⟩

theorem retry_attempt {st : State} (hi : Inv st) (hf : st.finalized = false) (k v : String) (r : Nat) (fails : List Bool) :
    Inv (retryAlloc (attempt k v) (fun s => s) r (st, fails)).1.1 ∧
    Keeps st (retryAlloc (attempt k v) (fun s => s) r (st, fails)).1.1 ∧
    ∀ n, (retryAlloc (attempt k v) (fun s => s) r (st, fails)).2 = some n →
      Decodes (retryAlloc (attempt k v) (fun s => s) r (st, fails)).1.1 n k v := by
  induction r generalizing st fails with
  | zero =>
    have := attempt_spec hi hf k v fails
    rw [retryAlloc]
    split <;> next h1 => rw [h1] at this; exact this
  | succ r ih =>
    have := attempt_spec hi hf k v fails
    rw [retryAlloc]
    split
    · next h1 => rw [h1] at this; exact this
    · next t h1 =>
      rw [h1] at this
      obtain ⟨g1, g2, g3⟩ := ih this.1 (this.2.1.fin.trans hf) t.2
      exact ⟨g1, this.2.1.trans g2, g3⟩

theorem id_spec {st : State} (hi : Inv st) (k v : String) (retry : Bool) (fails : List Bool) :
    Inv (id st k v retry fails).1 ∧ Keeps st (id st k v retry fails).1 ∧
    ∀ n, (id st k v retry fails).2 = some n → Decodes (id st k v retry fails).1 n k v := by
  unfold id
  by_cases hf : st.finalized = true
  · rw [if_pos hf]
    exact ⟨hi, .refl st, by simp⟩
  · rw [if_neg hf]
    rw [Bool.not_eq_true] at hf
    split
    · exact retry_attempt hi hf k v 1 fails
    · exact attempt_spec hi hf k v fails

theorem call_spec {st : State} (hi : Inv st) (c : Call) : Inv (call st c) ∧
    ∀ n k v, Decodes st n k v → Decodes (call st c) n k v := by
  cases c with
  | id k v retry fails =>
    obtain ⟨h1, h2, _⟩ := id_spec hi k v retry fails
    refine ⟨h1, ?_⟩
    rintro n k' v' ⟨p, hp, hk, hv⟩
    exact ⟨p, h2.pair n p hp, h2.key _ _ hk, h2.value _ _ hv⟩
  | finalize => exact ⟨⟨by simp [call, finalize], by simp [call, finalize], by simp [call, finalize], hi.keyInj, hi.valueInj, hi.pairInj, hi.closed⟩, fun _ _ _ h => h⟩

theorem run_spec (cs : List Call) : ∀ {st : State}, Inv st → Inv (run st cs) ∧ ∀ n k v, Decodes st n k v → Decodes (run st cs) n k v := by
  induction cs with
  | nil => intro st hi; exact ⟨hi, fun _ _ _ h => h⟩
  | cons c cs ih =>
    intro st hi
    obtain ⟨h1, h2⟩ := call_spec hi c
    obtain ⟨h3, h4⟩ := ih h1
    exact ⟨h3, fun n k v h => h4 n k v (h2 n k v h)⟩

theorem inv_empty : Inv {} := by
  refine ⟨fun _ => ⟨?_, ?_⟩, fun _ => ⟨?_, ?_⟩, fun _ => ⟨?_, ?_⟩, ?_, ?_, ?_, ?_⟩ <;> simp [find]

theorem decodes_tag {st : State} {n : Nat} {k v : String} : Decodes st n k v ↔ tag st n = .ok (k, v) := by
  unfold Decodes tag
  constructor
  · rintro ⟨p, h1, h2, h3⟩
    rw [h1]
    simp only
    rw [h2, h3]
  · intro h
    split at h
    · simp at h
    · next p hp =>
      split at h
      · next k' v' h1 h2 =>
        simp only [Outcome.ok.injEq, Prod.mk.injEq] at h
        exact ⟨p, hp, by rw [h1, h.1], by rw [h2, h.2]⟩
      · simp at h

/-- **C36.**  After any history of calls, with any allocation failures, an identifier that `id` returns decodes to the pair,
directly afterwards and after any further calls. -/
theorem id_decodes (before after : List Call) (k v : String) (retry : Bool) (fails : List Bool) (n : Nat)
    (h : (id (run {} before) k v retry fails).2 = some n) :
    tag (run (id (run {} before) k v retry fails).1 after) n = .ok (k, v) := by
  have hi := (run_spec before inv_empty).1
  obtain ⟨h1, _, h3⟩ := id_spec hi k v retry fails
  exact decodes_tag.1 ((run_spec after h1).2 n k v (h3 n h))

/-- **C36.**  Decoding never fails in another way than by the exception, which is thrown exactly for identifiers that decode to no
pair. -/
theorem tag_known_or_throws (cs : List Call) (n : Nat) :
    (∃ k v, tag (run {} cs) n = .ok (k, v)) ∨ (tag (run {} cs) n = .throws ∧ ∀ k v, tag (run {} cs) n ≠ .ok (k, v)) := by
  cases h : tag (run {} cs) n with
  | ok p => exact .inl ⟨p.1, p.2, rfl⟩
  | throws => exact .inr ⟨rfl, by simp⟩
  | ub =>
    exfalso
    unfold tag at h
    split at h
    · simp at h
    · split at h <;> simp at h

example : tag (run {} [.id "highway" "primary" true []]) 7 = .throws := by decide +kernel

theorem run_append (cs ds : List Call) : ∀ st, run st (cs ++ ds) = run (run st cs) ds := by
  induction cs with
  | nil => intro st; rfl
  | cons c cs ih => intro st; exact ih _

/-- **C36.**  Two calls return the same identifier exactly when they were made for the same pair. -/
theorem id_unique (before between : List Call) (k v k' v' : String) (retry retry' : Bool) (fails fails' : List Bool) (n n' : Nat)
    (h : (id (run {} before) k v retry fails).2 = some n)
    (h' : (id (run (id (run {} before) k v retry fails).1 between) k' v' retry' fails').2 = some n') :
    n = n' ↔ (k, v) = (k', v') := by
  have hi := (run_spec before inv_empty).1
  obtain ⟨h1, _, h3⟩ := id_spec hi k v retry fails
  obtain ⟨h4, h5⟩ := run_spec between h1
  obtain ⟨h6, h7, h8⟩ := id_spec h4 k' v' retry' fails'
  obtain ⟨p, hp, hk, hv⟩ := h5 n k v (h3 n h)
  obtain ⟨p', hp', hk', hv'⟩ := h8 n' h'
  have hp := h7.pair _ _ hp
  have hk := h7.key _ _ hk
  have hv := h7.value _ _ hv
  constructor
  · rintro rfl
    rw [hp] at hp'
    simp only [Option.some.injEq] at hp'
    subst hp'
    rw [hk] at hk'
    rw [hv] at hv'
    simp only [Option.some.injEq] at hk' hv'
    rw [hk', hv']
  · intro he
    simp only [Prod.mk.injEq] at he
    obtain ⟨rfl, rfl⟩ := he
    have e1 := h6.keyInj _ _ _ hk hk'
    have e2 := h6.valueInj _ _ _ hv hv'
    have : p = p' := Prod.ext e1 e2
    subst this
    exact h6.pairInj _ _ _ hp hp'

/-- Tags that can be decoded stay as they are, whatever is called; also when a call throws. -/
theorem tag_stable (before after : List Call) (n : Nat) (k v : String) (h : tag (run {} before) n = .ok (k, v)) :
    tag (run {} (before ++ after)) n = .ok (k, v) := by
  rw [run_append]
  exact decodes_tag.1 ((run_spec after (run_spec before inv_empty).1).2 n k v (decodes_tag.2 h))

/-! #### Success after growing -/

theorem verdict_count (l : List Bool) : (verdict l).2.count true + (if (verdict l).1 then 1 else 0) = l.count true := by
  cases l with
  | nil => rfl
  | cons b l => cases b <;> simp [verdict]

theorem intern_count {K : Type} [DecidableEq K] (fwd : List (K × Nat)) (bwd : List (Nat × K)) (x : K) (fails : List Bool) :
    ((intern fwd bwd x fails).id = none → (intern fwd bwd x fails).rest.count true < fails.count true) ∧
    (intern fwd bwd x fails).rest.count true ≤ fails.count true := by
  have v1 := verdict_count fails
  have v2 := verdict_count (verdict fails).2
  unfold intern
  cases find fwd x with
  | some i => simp
  | none =>
    simp only
    split
    · next h1 => rw [if_pos h1] at v1; simp only; omega
    · next h1 =>
      rw [if_neg h1] at v1
      split
      · next h2 => rw [if_pos h2] at v2; simp only; omega
      · next h2 => rw [if_neg h2] at v2; simp only; exact ⟨by simp, by omega⟩

theorem attempt_count (k v : String) (s : State × List Bool) :
    (attempt k v s).2 = none → (attempt k v s).1.2.count true < s.2.count true := by
  have h1 := intern_count s.1.keyId s.1.idKey k s.2
  simp only [attempt]
  cases hid : (intern s.1.keyId s.1.idKey k s.2).id with
  | none => intro _; exact h1.1 hid
  | some ki =>
    simp only [valueStep]
    have h2 := intern_count s.1.valueId s.1.idValue v (intern s.1.keyId s.1.idKey k s.2).rest
    cases hid2 : (intern s.1.valueId s.1.idValue v (intern s.1.keyId s.1.idKey k s.2).rest).id with
    | none =>
      intro _
      have := h2.1 hid2
      simp only
      omega
    | some vi =>
      simp only [pairStep]
      intro h
      have := (intern_count s.1.ids s.1.tags (ki, vi) (intern s.1.valueId s.1.idValue v (intern s.1.keyId s.1.idKey k s.2).rest).rest).1 h
      omega

/-- **C36.**  One failed allocation at any point does not make the call fail. -/
theorem id_succeeds (st : State) (hf : st.finalized = false) (k v : String) (fails : List Bool) (h : fails.count true ≤ 1) :
    ∃ n, (id st k v true fails).2 = some n := by
  unfold id
  rw [hf]
  simp only [Bool.false_eq_true, if_false, if_true]
  have h1 := attempt_count k v (st, fails)
  rw [retryAlloc]
  split
  · exact ⟨_, rfl⟩
  · next t ht =>
    rw [ht] at h1
    have := h1 rfl
    simp only at this
    have h2 := attempt_count k v t
    rw [retryAlloc]
    split
    · exact ⟨_, rfl⟩
    · next t' ht' =>
      rw [ht'] at h2
      have := h2 rfl
      omega

/-- The third insertion fails first; the same pair gets the same identifier, another pair another one. -/
example : (id {} "highway" "primary" true [false, false, false, true]).2 = some 0 ∧
    tag (id {} "highway" "primary" true [false, false, false, true]).1 0 = .ok ("highway", "primary") ∧
    (id (run {} [.id "highway" "primary" true [], .id "name" "primary" true [true, true]]) "highway" "secondary" true []).2 = some 1 ∧
    (id (run {} [.id "highway" "primary" true [], .finalize]) "highway" "primary" true []).2 = none := by decide

/-! ### C54: tags of elements -/

theorem find_update (m : List (Nat × List Nat)) (i k : Nat) (tags : List Nat) :
    find (update m i tags) k = if i = k then (find m i).map (fun _ => tags) else find m k := by
  unfold update find
  induction m with
  | nil => simp
  | cons e m ih =>
    rw [List.map_cons, List.find?_cons, List.find?_cons, List.find?_cons]
    by_cases h : i = k
    · subst h
      by_cases he : e.1 = i
      · simp [he]
      · simp only [he, if_false, decide_false, if_true]
        rw [if_pos rfl] at ih
        exact ih
    · rw [if_neg h] at ih ⊢
      by_cases he : e.1 = i
      · rw [if_pos he]
        have : ¬ e.1 = k := fun h' => h (he.symm.trans h')
        simp only [h, decide_false, this]
        exact ih
      · rw [if_neg he]
        by_cases hk : e.1 = k
        · simp [hk]
        · simp only [hk, decide_false]
          exact ih

theorem mapTags_emplace {m : List (Nat × List Nat)} {i : Nat} (h : find m i = none) (tags : List Nat) (k : Nat) :
    mapTags (emplace m i tags) k = if i = k then tags else mapTags m k := by
  unfold mapTags
  rw [emplace_new _ h, find_append]
  by_cases hk : i = k
  · subst hk
    simp [h]
  · simp [hk]

/-- **C54.**  Merging appends the missing tags of the other element to the own ones; all other elements keep their tags. -/
theorem merge_tags (m : List (Nat × List Nat)) (i j k : Nat) : mapTags (mergeMapTags m i j) k =
    if k = i then mapTags m i ++ (mapTags m j).filter (fun t => decide (t ∉ mapTags m i)) else mapTags m k := by
  unfold mergeMapTags
  by_cases hij : i = j
  · subst hij
    rw [if_pos rfl]
    split
    · next h =>
      subst h
      have : (mapTags m k).filter (fun t => decide (t ∉ mapTags m k)) = [] := by
        rw [List.filter_eq_nil_iff]
        intro t ht
        simp [ht]
      rw [this, List.append_nil]
    · rfl
  · rw [if_neg hij]
    cases hj : find m j with
    | none =>
      simp only
      split
      · next h => subst h; simp [mapTags, hj]
      · rfl
    | some other =>
      have hmj : mapTags m j = other := by simp [mapTags, hj]
      cases hi : find m i with
      | some own =>
        have hmi : mapTags m i = own := by simp [mapTags, hi]
        simp only
        rw [hmj, hmi]
        conv_lhs => unfold mapTags
        rw [find_update, hi]
        by_cases hk : i = k
        · subst hk
          simp
        · rw [if_neg hk, if_neg (fun h => hk h.symm)]
          rfl
      | none =>
        have hmi : mapTags m i = [] := by simp [mapTags, hi]
        simp only
        rw [mapTags_emplace hi, hmj, hmi]
        by_cases hk : i = k
        · subst hk
          simp
        · rw [if_neg hk, if_neg (fun h => hk h.symm)]

/-- Merging once more changes nothing; a tag is there afterwards exactly if one of the two had it. -/
theorem merge_tags_union (m : List (Nat × List Nat)) (i j : Nat) :
    (∀ k, mapTags (mergeMapTags (mergeMapTags m i j) i j) k = mapTags (mergeMapTags m i j) k) ∧
    (∀ t, t ∈ mapTags (mergeMapTags m i j) i ↔ t ∈ mapTags m i ∨ t ∈ mapTags m j) := by
  constructor
  · intro k
    rw [merge_tags (mergeMapTags m i j) i j k]
    by_cases hk : k = i
    · subst hk
      rw [if_pos rfl]
      have : (mapTags (mergeMapTags m k j) j).filter (fun t => decide (t ∉ mapTags (mergeMapTags m k j) k)) = [] := by
        rw [List.filter_eq_nil_iff]
        intro t ht
        by_cases hjk : j = k
        · subst hjk
          simp [ht]
        · rw [merge_tags, if_neg hjk] at ht
          rw [merge_tags, if_pos rfl]
          by_cases h : t ∈ mapTags m k <;> simp [h, ht]
      rw [this, List.append_nil]
    · rw [if_neg hk]
  · intro t
    rw [merge_tags, if_pos rfl, List.mem_append, List.mem_filter]
    by_cases h : t ∈ mapTags m i <;> simp [h]

/-- Setting the tags of an element without tags; no other element changes. -/
theorem set_tags (m : List (Nat × List Nat)) (i k : Nat) (tags : List Nat) (h : find m i = none) :
    mapTags (setMapTags m i tags) k = if k = i then tags else mapTags m k := by
  unfold setMapTags
  split
  · next ht =>
    split
    · next hk => subst hk; simp [mapTags, h, ht]
    · rfl
  · rw [mapTags_emplace h]
    by_cases hk : i = k
    · rw [if_pos hk, if_pos hk.symm]
    · rw [if_neg hk, if_neg (fun h' => hk h'.symm)]

example : mergeMapTags [(7, [1, 2]), (8, [2, 3]), (9, [4])] 7 8 = [(7, [1, 2, 3]), (8, [2, 3]), (9, [4])] ∧
    mergeMapTags [(8, [2, 3])] 7 8 = [(8, [2, 3]), (7, [2, 3])] := by decide

/-! ### C57: tags of elements while the storage grows -/

/-- **C57.**  Without allocation failures the operations on the memory mapped storage set, clone and merge the tags.
Missing from the full property: allocation failures (`set_grow_fails`, `merge_grow_fails`, `clone_grow_fails`). -/
theorem mem_partial (m : Mem) (i j : Nat) (tags : List Nat) (h : m.fails.count true = 0) :
    (∃ m', setMem m.gen i tags m = .ok (m', some ()) ∧ m'.map = setMapTags m.map i tags ∧ m'.gen = m.gen) ∧
    (∃ m', cloneMem i tags m = .ok (m', some ()) ∧ m'.map = setMapTags m.map i tags ∧ m'.gen = m.gen) ∧
    (∃ m', mergeMem i j m = .ok (m', some ()) ∧ m'.map = mergeMapTags m.map i j ∧ m'.gen = m.gen) := by
  have hv : ∀ l : List Bool, l.count true = 0 → (verdict l).1 = false ∧ (verdict l).2.count true = 0 := by
    intro l hl
    have := verdict_count l
    rw [hl] at this
    constructor
    · cases hb : (verdict l).1 with
      | false => rfl
      | true => rw [hb] at this; simp at this
    · omega
  obtain ⟨v1, v2⟩ := hv m.fails h
  obtain ⟨v3, _⟩ := hv _ v2
  have hem : ∀ ts, emplaceMem m.gen m.gen i ts m = .ok ({ m with fails := (verdict m.fails).2, map := emplace m.map i ts }, some ()) := by
    intro ts
    simp [emplaceMem, deref, alloc, v1]
  have hem2 : ∀ ts, emplaceMem m.gen m.gen i ts { m with fails := (verdict m.fails).2 } =
      .ok ({ m with fails := (verdict (verdict m.fails).2).2, map := emplace m.map i ts }, some ()) := by
    intro ts
    simp [emplaceMem, deref, alloc, v3]
  refine ⟨?_, ?_, ?_⟩
  · unfold setMem setMapTags
    by_cases ht : tags = []
    · simp [ht]
    · rw [if_neg ht, if_neg ht]
      simp only [retryMem, hem, Outcome.bind_ok]
      exact ⟨_, rfl, rfl, rfl⟩
  · unfold cloneMem setMapTags
    by_cases ht : tags = []
    · simp [ht, retryMem]
    · simp only [retryMem, ht, if_false, cloneTags, alloc, v1, Bool.false_eq_true, Outcome.bind_ok, hem2]
      exact ⟨_, rfl, rfl, rfl⟩
  · unfold mergeMem mergeMapTags
    by_cases hij : i = j
    · simp [hij]
    · rw [if_neg hij, if_neg hij]
      simp only [retryMem, mergeOnce]
      cases find m.map j with
      | none => exact ⟨m, rfl, rfl, rfl⟩
      | some other =>
        simp only
        cases find m.map i with
        | some own =>
          simp only [alloc, v1, Bool.false_eq_true, if_false, Outcome.bind_ok]
          exact ⟨_, rfl, rfl, rfl⟩
        | none =>
          simp only [copyMem, retryMem, deref, alloc, v1, Bool.false_eq_true, if_false, if_true, Outcome.bind_ok]
          have := hem2 other
          rw [this]
          exact ⟨_, rfl, rfl, rfl⟩

example : mergeMem 7 8 ⟨0, [(8, [2, 3])], [false, false]⟩ = .ok (⟨0, [(8, [2, 3]), (7, [2, 3])], []⟩, some ()) := by decide

/-- Merging into existing tags also survives a growth, the lists are fetched anew. -/
theorem merge_existing (m : Mem) (i j : Nat) (own other : List Nat) (hi : find m.map i = some own) (hj : find m.map j = some other)
    (hij : i ≠ j) (h : m.fails.count true ≤ 1) :
    ∃ m', mergeMem i j m = .ok (m', some ()) ∧ m'.map = mergeMapTags m.map i j := by
  have v1 := verdict_count m.fails
  have v2 := verdict_count (verdict m.fails).2
  simp only [mergeMem, if_neg hij, retryMem, mergeOnce, mergeMapTags, hi, hj, alloc]
  by_cases hb : (verdict m.fails).1 = true
  swap
  · simp only [hb, Bool.false_eq_true, if_false, Outcome.bind_ok]
    exact ⟨_, rfl, rfl⟩
  · simp only [hb, if_true] at v1
    have hb2 : (verdict (verdict m.fails).2).1 = false := by
      cases hb2 : (verdict (verdict m.fails).2).1 with
      | false => rfl
      | true => rw [hb2] at v2; simp at v2; omega
    simp only [hb, if_true, Outcome.bind_ok, grow, hi, hj, hb2, Bool.false_eq_true, if_false]
    exact ⟨_, rfl, rfl⟩

/-- **C57 fails**: the vector to be set was made before the storage grew. -/
theorem set_grow_fails : setMem 0 7 [1, 2] ⟨0, [], [true, false]⟩ = .ub := by decide

/-- `merge_existing`: both elements have tags, and the storage has to grow once. -/
example : mergeMem 7 8 ⟨0, [(7, [1]), (8, [2, 3])], [true, false]⟩ ≠ .ub ∧
    ∃ m', mergeMem 7 8 ⟨0, [(7, [1]), (8, [2, 3])], [true, false]⟩ = .ok (m', some ()) ∧ m'.map = mergeMapTags [(7, [1]), (8, [2, 3])] 7 8 :=
  ⟨by decide, merge_existing _ 7 8 [1] [2, 3] rfl rfl (by decide) (by decide)⟩

/-- **C57 fails**: `copy_tags` lets the storage grow, then reads the vector of the other element through the old reference. -/
theorem merge_grow_fails : mergeMem 7 8 ⟨0, [(8, [2, 3])], [true, false]⟩ = .ub := by decide

/-- **C57 fails**: `clone_tags` lets the storage grow, then the old reference to the map is used. -/
theorem clone_grow_fails : cloneMem 7 [1, 2] ⟨0, [], [true, false]⟩ = .ub := by decide

end MM.Tags
