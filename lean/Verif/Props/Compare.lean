import Verif.Model.Compare
import Mathlib.Data.List.Count
import Mathlib.Data.List.Perm.Basic
import Mathlib.Data.List.Nodup
import Mathlib.Algebra.Order.Field.Basic
import Mathlib.Data.Nat.Basic
import Mathlib.Data.Rat.Defs
import Mathlib.Algebra.Order.Field.Rat
import Mathlib.Tactic.SplitIfs
import Mathlib.Tactic.NormNum

/-!
# C33, C34: comparing a match with its ground truth
-/

set_option autoImplicit false
set_option linter.unusedSectionVars false

namespace MM.Compare

variable {P R : Type}

section Align

variable [DecidableEq P]

theorem part_count (l : List (P × P)) {i e : Nat} (h : i ≤ e) (s : P × P) :
    (part l i e).count s + (l.drop e).count s = (l.drop i).count s := by
  unfold part
  have : l.drop e = (l.drop i).drop (e - i) := by rw [List.drop_drop]; congr 1; omega
  rw [this, ← List.count_append, List.take_append_drop]

theorem detectReverse_bounds {l : List (P × P)} {i e : Nat} (h : detectReverse l i = some e) : i < e ∧ e < l.length := by
  unfold detectReverse comesBack at h
  split_ifs at h
  split at h
  · rw [Option.map_eq_some_iff] at h
    obtain ⟨k, hk, rfl⟩ := h
    have := (List.findIdx?_eq_some_iff_getElem.1 hk).1
    rw [List.length_drop] at this
    omega
  · simp at h

/-- **C33.**  What is set aside as a reverse part of a line, whose segments follow each other, is a round trip: it begins with the
segment just passed in the other direction, comes back to where it began, and does so for the first time. -/
theorem reverse_round_trip {l : List (P × P)} (hl : l.IsChain (fun s t => s.2 = t.1)) {i e : Nat} (h : detectReverse l i = some e) :
    ∃ s t u : P × P, 1 ≤ i ∧ l[i - 1]? = some s ∧ l[i]? = some t ∧ t = (s.2, s.1) ∧
      i < e ∧ l[e - 1]? = some u ∧ u.2 = t.1 ∧ ∀ k x, i ≤ k → k + 1 < e → l[k]? = some x → x.2 ≠ t.1 := by
  have hb := detectReverse_bounds h
  unfold detectReverse at h
  split_ifs at h with hr
  unfold turnsBack at hr
  split at hr
  · rename_i s t hs ht
    simp only [Bool.and_eq_true, decide_eq_true_eq] at hr
    unfold comesBack at h
    rw [ht] at h
    simp only [Option.map_eq_some_iff] at h
    obtain ⟨k, hk, rfl⟩ := h
    obtain ⟨hk1, hk2, hk3⟩ := List.findIdx?_eq_some_iff_getElem.1 hk
    rw [List.length_drop] at hk1
    simp only [List.getElem_drop, decide_eq_true_eq] at hk2
    have hc : ∀ m, (hm : m + 1 < l.length) → l[m].2 = l[m + 1].1 := fun m hm => List.isChain_iff_getElem.1 hl m hm
    refine ⟨s, t, l[i + k]'(by omega), hr.1.1, hs, ht, Prod.ext hr.1.2.symm hr.2.symm, hb.1, ?_, ?_, ?_⟩
    · rw [List.getElem?_eq_getElem (by omega)]
      simp only [Option.some.injEq]
      congr 1
      omega
    · rw [hc (i + k) (by omega), ← hk2]
      congr 2
      omega
    · intro m x hm1 hm2 hx he
      obtain ⟨hml, rfl⟩ := List.getElem?_eq_some_iff.1 hx
      have := hk3 (m - i) (by omega)
      simp only [List.getElem_drop, decide_eq_true_eq] at this
      apply this
      rw [← he, hc m (by omega)]
      congr 2
      omega
  · simp at hr

example : detectReverse [((0 : Nat), (1 : Nat)), (1, 2), (2, 1), (1, 0), (0, 3), (3, 2), (2, 4)] 2 = some 6 ∧
    [((0 : Nat), (1 : Nat)), (1, 2), (2, 1), (1, 0), (0, 3), (3, 2), (2, 4)].IsChain (fun s t => s.2 = t.1) := by
  decide

theorem aside_bounds (l : List (P × P)) {i : Nat} (h : i < l.length) :
    i ≤ (detectReverse l i).getD i ∧ (detectReverse l i).getD i < l.length ∧
      (detectReverse l i ≠ none → i < (detectReverse l i).getD i) := by
  cases hd : detectReverse l i with
  | none => simp [h]
  | some e => have := detectReverse_bounds hd; simp; omega

theorem mergeLoop_bounds (a : List (P × P)) (i : Nat) (stop : Nat × Nat) (ts : List (P × P)) : ∀ j : Nat, i ≤ a.length →
    mergeLoop a i stop ts j = stop ∨
      (i ≤ (mergeLoop a i stop ts j).1 ∧ (mergeLoop a i stop ts j).1 < a.length ∧
        j ≤ (mergeLoop a i stop ts j).2 ∧ (mergeLoop a i stop ts j).2 < j + ts.length ∧
        ∃ s t, a[(mergeLoop a i stop ts j).1]? = some s ∧ ts[(mergeLoop a i stop ts j).2 - j]? = some t ∧ s.1 = t.1) := by
  induction ts with
  | nil => intro j _; exact .inl rfl
  | cons t ts ih =>
    intro j hi
    rw [mergeLoop]
    cases hf : (a.drop i).findIdx? (fun s => decide (s.1 = t.1)) with
    | none =>
      simp only
      rcases ih (j + 1) hi with h | ⟨h1, h2, h3, h4, s, u, h5, h6, h7⟩
      · exact .inl h
      · refine .inr ⟨h1, h2, by omega, by rw [List.length_cons]; omega, s, u, h5, ?_, h7⟩
        rw [show (mergeLoop a i stop ts (j + 1)).2 - j = ((mergeLoop a i stop ts (j + 1)).2 - (j + 1)) + 1 by omega,
          List.getElem?_cons_succ]
        exact h6
    | some k =>
      simp only
      obtain ⟨hk, hp, _⟩ := List.findIdx?_eq_some_iff_getElem.1 hf
      rw [List.length_drop] at hk
      refine .inr ⟨by omega, by omega, le_refl _, by rw [List.length_cons]; omega, a[i + k]'(by omega), t, ?_, by simp, ?_⟩
      · exact List.getElem?_eq_getElem (by omega)
      · simpa using hp

theorem findMerge_bounds {a b : List (P × P)} {i j : Nat} {s t : P × P} (hs : a[i]? = some s) (ht : b[j]? = some t) (hst : s ≠ t) :
    i ≤ (findMerge a b i j).1 ∧ (findMerge a b i j).1 ≤ a.length ∧ j ≤ (findMerge a b i j).2 ∧
      (findMerge a b i j).2 ≤ b.length ∧ i + j < (findMerge a b i j).1 + (findMerge a b i j).2 := by
  have hi : i < a.length := (List.getElem?_eq_some_iff.1 hs).1
  have hj : j < b.length := (List.getElem?_eq_some_iff.1 ht).1
  have hm : mergeStart a b i j = if s.1 = t.1 ∧ s.2 ≠ t.2 then j + 1 else j := by rw [mergeStart, hs, ht]
  unfold findMerge
  rcases mergeLoop_bounds a i (a.length, b.length) (b.drop (mergeStart a b i j)) (mergeStart a b i j) (by omega) with
    h | ⟨h1, h2, h3, h4, u, v, h5, h6, h7⟩
  · rw [h]
    simp only
    omega
  · rw [List.length_drop] at h4
    split_ifs at hm with hc
    · rw [hm] at h1 h2 h3 h4 ⊢
      omega
    · rw [hm] at h1 h2 h3 h4 h5 h6 ⊢
      refine ⟨h1, by omega, h3, by omega, ?_⟩
      by_contra hle
      have e1 : (mergeLoop a i (a.length, b.length) (b.drop j) j).1 = i := by omega
      have e2 : (mergeLoop a i (a.length, b.length) (b.drop j) j).2 = j := by omega
      rw [e1, hs] at h5
      rw [e2, Nat.sub_self, List.getElem?_drop, Nat.add_zero, ht] at h6
      simp only [Option.some.injEq] at h5 h6
      subst h5 h6
      exact hc ⟨h7, fun h8 => hst (Prod.ext h7 h8)⟩

/-- Every segment is in one of the lists or still to come. -/
def Accounts (a b : List (P × P)) (st : Align P) : Prop :=
  ∀ s, a.count s = st.corrects.count s + st.misses.count s + st.revA.count s + (a.drop st.i).count s ∧
    b.count s = st.corrects.count s + st.adds.count s + st.revB.count s + (b.drop st.j).count s

theorem putAside_accounts {a b : List (P × P)} {st : Align P} (hi : st.i < a.length) (hj : st.j < b.length)
    (h : Accounts a b st) : Accounts a b (putAside a b st) := by
  intro s
  obtain ⟨h1, h2⟩ := h s
  have e1 := part_count a (aside_bounds a hi).1 s
  have e2 := part_count b (aside_bounds b hj).1 s
  simp only [putAside, List.count_append]
  omega

theorem skip_accounts {a b : List (P × P)} {st : Align P} (hi : st.i ≤ (findMerge a b st.i st.j).1)
    (hj : st.j ≤ (findMerge a b st.i st.j).2) (h : Accounts a b st) : Accounts a b (skipErrors a b st) := by
  intro s
  obtain ⟨h1, h2⟩ := h s
  have e1 := part_count a hi s
  have e2 := part_count b hj s
  simp only [skipErrors, List.count_append]
  omega

theorem loop_ok (a b : List (P × P)) : ∀ (n : Nat) (st : Align P), (a.length - st.i) + (b.length - st.j) < n →
    Accounts a b st → ∃ st', alignLoop a b n st = .ok st' ∧ Accounts a b st' := by
  intro n
  induction n with
  | zero => intro st h; omega
  | succ n ih =>
    intro st hn hacc
    rw [alignLoop]
    cases hs : a[st.i]? with
    | none => exact ⟨st, rfl, hacc⟩
    | some s =>
      cases ht : b[st.j]? with
      | none => exact ⟨st, rfl, hacc⟩
      | some t =>
        simp only
        have hi : st.i < a.length := (List.getElem?_eq_some_iff.1 hs).1
        have hj : st.j < b.length := (List.getElem?_eq_some_iff.1 ht).1
        have b1 := aside_bounds a hi
        have b2 := aside_bounds b hj
        split_ifs with hst h1 h2
        · refine ih _ (by simp only; omega) ?_
          intro x
          obtain ⟨e1, e2⟩ := hacc x
          have f1 : a.drop st.i = s :: a.drop (st.i + 1) := by
            rw [List.drop_eq_getElem_cons hi, (List.getElem?_eq_some_iff.1 hs).2]
          have f2 : b.drop st.j = t :: b.drop (st.j + 1) := by
            rw [List.drop_eq_getElem_cons hj, (List.getElem?_eq_some_iff.1 ht).2]
          rw [f1] at e1
          rw [f2, ← hst] at e2
          simp only [List.count_append, List.count_cons, List.count_nil] at e1 e2 ⊢
          omega
        · exact ⟨_, rfl, putAside_accounts hi hj hacc⟩
        · have e1 : (putAside a b st).i = st.i := by simp [putAside, h2.1]
          have e2 : (putAside a b st).j = st.j := by simp [putAside, h2.2]
          have hb := findMerge_bounds hs ht hst
          refine ih _ ?_ (skip_accounts ?_ ?_ (putAside_accounts hi hj hacc))
          · simp only [skipErrors, e1, e2]
            omega
          · rw [e1, e2]; exact hb.1
          · rw [e1, e2]; exact hb.2.2.1
        · refine ih _ ?_ (putAside_accounts hi hj hacc)
          simp only [putAside]
          have : detectReverse a st.i ≠ none ∨ detectReverse b st.j ≠ none := by
            by_contra hc
            rw [not_or, not_not, not_not] at hc
            exact h2 hc
          rcases this with h | h
          · have := b1.2.2 h
            omega
          · have := b2.2.2 h
            omega

theorem align_ok (a b : List (P × P)) : ∃ st, align a b = .ok st ∧
    ∀ s, a.count s = st.corrects.count s + st.misses.count s + st.revA.count s ∧
      b.count s = st.corrects.count s + st.adds.count s + st.revB.count s := by
  obtain ⟨st, h1, h2⟩ := loop_ok a b (a.length + b.length + 1) ⟨0, 0, [], [], [], [], []⟩ (by simp only; omega)
    (by intro s; simp)
  refine ⟨leftOver a b st, by rw [align, h1, Outcome.map_ok], ?_⟩
  intro s
  obtain ⟨e1, e2⟩ := h2 s
  have g : ∀ (l : List (P × P)) (i : Nat), part l i l.length = l.drop i := by
    intro l i
    unfold part
    rw [List.take_of_length_le (by rw [List.length_drop])]
  simp only [leftOver, List.count_append, g]
  omega

theorem pairOff_count (n : Nat) : ∀ (xs ys taken : List (P × P)) (s : P × P),
    xs.count s + taken.count s = (pairOff n xs ys taken).1.count s + (pairOff n xs ys taken).2.2.count s ∧
    ys.count s + taken.count s = (pairOff n xs ys taken).2.1.count s + (pairOff n xs ys taken).2.2.count s := by
  induction n with
  | zero => intro xs ys taken s; simp [pairOff]
  | succ n ih =>
    intro xs ys taken s
    rw [pairOff]
    cases hf : xs.find? (fun x => decide (x ∈ ys)) with
    | none => simp
    | some x =>
      simp only
      have hx : x ∈ xs := List.mem_of_find?_eq_some hf
      have hy : x ∈ ys := by simpa using List.find?_some hf
      obtain ⟨h1, h2⟩ := ih (xs.erase x) (ys.erase x) (taken ++ [x]) s
      have p1 := (List.perm_cons_erase hx).count_eq s
      have p2 := (List.perm_cons_erase hy).count_eq s
      rw [List.count_cons] at p1 p2
      rw [List.count_append, List.count_cons, List.count_nil] at h1 h2
      omega

theorem pairOff_disjoint (n : Nat) : ∀ (xs ys taken : List (P × P)), xs.length ≤ n →
    ∀ s ∈ (pairOff n xs ys taken).1, s ∉ (pairOff n xs ys taken).2.1 := by
  induction n with
  | zero => intro xs ys taken h; simp [List.length_eq_zero_iff.1 (Nat.le_zero.1 h), pairOff]
  | succ n ih =>
    intro xs ys taken h
    rw [pairOff]
    cases hf : xs.find? (fun x => decide (x ∈ ys)) with
    | none =>
      simp only
      intro s hs
      simpa using List.find?_eq_none.1 hf s hs
    | some x =>
      simp only
      exact ih _ _ _ (by rw [List.length_erase_of_mem (List.mem_of_find?_eq_some hf)]; omega)

theorem appendNew_count (ss : List (P × P)) : ∀ l : List (P × P), ∃ d : List (P × P),
    (∀ s, (appendNew l ss).count s + d.count s = l.count s + ss.count s) ∧ (∀ s ∈ d, s ∈ appendNew l ss) ∧
    (∀ s ∈ l, s ∈ appendNew l ss) := by
  induction ss with
  | nil => intro l; exact ⟨[], by simp [appendNew], by simp, by simp [appendNew]⟩
  | cons t ss ih =>
    intro l
    rw [appendNew]
    split_ifs with h
    · obtain ⟨d, h1, h2, h3⟩ := ih l
      refine ⟨t :: d, ?_, ?_, h3⟩
      · intro s
        have := h1 s
        rw [List.count_cons, List.count_cons]
        omega
      · intro s hs
        rcases List.mem_cons.1 hs with rfl | hs
        · exact h3 _ h
        · exact h2 s hs
    · obtain ⟨d, h1, h2, h3⟩ := ih (l ++ [t])
      refine ⟨d, ?_, h2, fun s hs => h3 s (by simp [hs])⟩
      intro s
      have := h1 s
      rw [List.count_append, List.count_cons, List.count_nil] at this
      rw [List.count_cons]
      omega

/-- **C33.**  The alignment ends.  The correct and the missed segments are those of the ground truth, the correct and the
added ones those of the match, with multiplicities; segments in `da` and `db` are dropped, but a dropped segment is
the repetition of another one that is in the result.  No segment is both missed and added.
Missing from the full property: `da = []` and `db = []`, which does not hold (`repeated_fails`). -/
theorem alignment_partial (a b : List (P × P)) : ∃ r, alignment a b = .ok r ∧
    (∃ da, a.Perm (r.corrects ++ r.misses ++ da) ∧ ∀ s ∈ da, s ∈ r.corrects ++ r.misses) ∧
    (∃ db, b.Perm (r.corrects ++ r.adds ++ db) ∧ ∀ s ∈ db, s ∈ r.corrects ++ r.adds) ∧
    (∀ s ∈ r.misses, s ∉ r.adds) := by
  obtain ⟨st, hst, hc⟩ := align_ok a b
  obtain ⟨da, a1, a2, _⟩ := appendNew_count (addsReverse st).2.1 (missesReverse st).1
  obtain ⟨db, b1, b2, _⟩ := appendNew_count (missesReverse st).2.1 (addsReverse st).1
  have p1 := pairOff_count st.revB.length st.revB st.revA []
  have p2 := pairOff_count st.adds.length st.adds (both st).2.1 []
  have p3 := pairOff_count st.misses.length st.misses (both st).1 []
  have p4 := pairOff_count (allMisses st).length (allMisses st) (allAdds st) []
  refine ⟨reconcile st, by rw [alignment, hst, Outcome.map_ok], ⟨da, ?_, ?_⟩, ⟨db, ?_, ?_⟩, ?_⟩
  · rw [List.perm_iff_count]
    intro s
    obtain ⟨c1, c2⟩ := hc s
    obtain ⟨q1, q1'⟩ := p1 s
    obtain ⟨q2, q2'⟩ := p2 s
    obtain ⟨q3, q3'⟩ := p3 s
    obtain ⟨q4, q4'⟩ := p4 s
    have q5 := a1 s
    simp only [reconcile, List.count_append, List.count_nil, both, addsReverse, missesReverse, missedAdded, allMisses, allAdds] at *
    omega
  · intro s hs
    have hm := a2 s hs
    have h4 := (p4 s).1
    have : 0 < (allMisses st).count s := List.count_pos_iff.2 hm
    rw [← List.count_pos_iff]
    simp only [reconcile, List.count_append, List.count_nil, missedAdded] at *
    omega
  · rw [List.perm_iff_count]
    intro s
    obtain ⟨c1, c2⟩ := hc s
    obtain ⟨q1, q1'⟩ := p1 s
    obtain ⟨q2, q2'⟩ := p2 s
    obtain ⟨q3, q3'⟩ := p3 s
    obtain ⟨q4, q4'⟩ := p4 s
    have q5 := b1 s
    simp only [reconcile, List.count_append, List.count_nil, both, addsReverse, missesReverse, missedAdded, allMisses, allAdds] at *
    omega
  · intro s hs
    have hm := b2 s hs
    have h4 := (p4 s).2
    have : 0 < (allAdds st).count s := List.count_pos_iff.2 hm
    rw [← List.count_pos_iff]
    simp only [reconcile, List.count_append, List.count_nil, missedAdded] at *
    omega
  · exact pairOff_disjoint _ _ _ _ (le_refl _)

theorem no_drop {l u d : List (P × P)} (hn : l.Nodup) (hp : l.Perm (u ++ d)) (hd : ∀ s ∈ d, s ∈ u) : l.Perm u := by
  have : d = [] := by
    by_contra hne
    obtain ⟨s, hs⟩ := List.exists_mem_of_ne_nil d hne
    have hnd := (hp.nodup_iff).1 hn
    exact (List.disjoint_of_nodup_append hnd) (hd s hs) hs
  rw [this, List.append_nil] at hp
  exact hp

/-- **C33, lines that use no segment twice in the same direction**: every segment of the ground truth is exactly once correct
or missed, every segment of the match exactly once correct or added. -/
theorem alignment_exact (a b : List (P × P)) (ha : a.Nodup) (hb : b.Nodup) : ∃ r, alignment a b = .ok r ∧
    a.Perm (r.corrects ++ r.misses) ∧ b.Perm (r.corrects ++ r.adds) ∧ (∀ s ∈ r.misses, s ∉ r.adds) ∧
    ∀ s, s ∈ a → s ∈ b → s ∈ r.corrects := by
  obtain ⟨r, h1, ⟨da, h2, h3⟩, ⟨db, h4, h5⟩, h6⟩ := alignment_partial a b
  have pa := no_drop ha h2 h3
  have pb := no_drop hb h4 h5
  refine ⟨r, h1, pa, pb, h6, ?_⟩
  intro s hsa hsb
  have m1 := (pa.mem_iff).1 hsa
  have m2 := (pb.mem_iff).1 hsb
  rw [List.mem_append] at m1 m2
  rcases m1 with m | m
  · exact m
  · rcases m2 with m' | m'
    · exact m'
    · exact absurd m' (h6 s m)

/-- Ground truth 0–1–2–3–4, the match leaves it between 1 and 3 and makes a detour back from 4. -/
example : alignment [(0, 1), (1, 2), (2, 3), (3, 4)] [(0, 1), (1, 7), (7, 3), (3, 4), (4, 3), (3, 4), (4, 5)] =
    .ok (⟨[(0, 1), (3, 4)], [(1, 7), (7, 3), (4, 3), (3, 4), (4, 5)], [(1, 2), (2, 3)]⟩ : Parts Nat) := by decide

/-- **C33 fails** for a ground truth that goes back and forth: of the two drives from 1 to 0 only one is missed. -/
theorem repeated_fails : alignment [(0, 1), (1, 0), (0, 1), (1, 0), (0, 2)] [(0, 1), (1, 3)] =
    .ok (⟨[(0, 1)], [(1, 3)], [(1, 0), (0, 2), (0, 1)]⟩ : Parts Nat) := by decide

/-- Equal lines are all correct. -/
theorem alignment_same (l : List (P × P)) : alignment l l = .ok ⟨l, [], []⟩ := by
  have key : ∀ (n i : Nat), l.length - i < n → alignLoop l l n ⟨i, i, l.take i, [], [], [], []⟩ =
      .ok ⟨max i l.length, max i l.length, l, [], [], [], []⟩ := by
    intro n
    induction n with
    | zero => intro i h; omega
    | succ n ih =>
      intro i h
      rw [alignLoop]
      by_cases hi : i < l.length
      · simp only [List.getElem?_eq_getElem hi, if_true]
        have := ih (i + 1) (by omega)
        rw [List.take_add_one, List.getElem?_eq_getElem hi] at this
        simp only [Option.toList_some] at this
        rw [this, max_eq_right (by omega), max_eq_right (by omega)]
      · simp only [List.getElem?_eq_none (not_lt.1 hi)]
        rw [List.take_of_length_le (not_lt.1 hi), max_eq_left (not_lt.1 hi)]
  have h0 := key (l.length + l.length + 1) 0 (by omega)
  rw [List.take_zero] at h0
  rw [alignment, align, h0, Outcome.map_ok, Outcome.map_ok]
  simp [leftOver, reconcile, both, addsReverse, missesReverse, missedAdded, allMisses, allAdds, pairOff, appendNew, part]

end Align

/-! ### Preparation -/

section Prepare

variable [LinearOrder P] [LinearOrder R]

/-- The points of segments. -/
def pts (l : List (P × P)) : List P := l.flatMap (fun s => [s.1, s.2])

theorem mem_pts {l : List (P × P)} {p : P} : p ∈ pts l ↔ ∃ s ∈ l, p = s.1 ∨ p = s.2 := by simp [pts]

theorem mem_pointsSet {l : List (P × P)} {p : P} : p ∈ pointsSet l ↔ p ∈ pts l := by
  unfold pointsSet pts
  rw [(List.perm_insertionSort _ _).mem_iff, List.mem_dedup]

theorem pointsSet_congr {l m : List (P × P)} (h : ∀ p, p ∈ pts l ↔ p ∈ pts m) : pointsSet l = pointsSet m := by
  have hp : (pointsSet l).Perm (pointsSet m) := by
    refine (List.perm_insertionSort _ _).trans (List.Perm.trans ?_ (List.perm_insertionSort _ _).symm)
    rw [List.perm_ext_iff_of_nodup (List.nodup_dedup _) (List.nodup_dedup _)]
    intro p
    rw [List.mem_dedup, List.mem_dedup]
    exact h p
  exact hp.eq_of_pairwise (fun a b _ _ h1 h2 => le_antisymm h1 h2) (List.pairwise_insertionSort _ _) (List.pairwise_insertionSort _ _)

/-- Different points are not within the adoption tolerance. -/
def Apart (T : Tools P R) (l : List P) : Prop :=
  ∀ p ∈ l, ∀ q ∈ l, p ≠ q → ¬ T.dist p q < T.tolerance

theorem nearestOf_none (T : Tools P R) (p : P) (qs : List P) (h : ∀ q ∈ qs, p ≠ q → ¬ T.dist p q < T.tolerance) :
    nearestOf T p qs none = none := by
  induction qs with
  | nil => rfl
  | cons q qs ih =>
    rw [nearestOf, if_neg]
    · exact ih (fun q hq => h q (List.mem_cons_of_mem _ hq))
    · rintro ⟨h1, h2, _⟩
      exact h q List.mem_cons_self h1 h2

theorem adaptSeconds_same (T : Tools P R) (ps : List P) (n : Nat) : ∀ (f : Bool) (l : List (P × P)),
    (∀ s ∈ l, adopt T ps s.2 = none) → adaptSeconds T ps n f l = l := by
  induction n with
  | zero => intro f l _; rfl
  | succ n ih =>
    intro f l h
    cases l with
    | nil => rfl
    | cons s ss =>
      rw [adaptSeconds, h s List.mem_cons_self]
      simp only
      rw [ih false ss (fun t ht => h t (List.mem_cons_of_mem _ ht))]

theorem adapt_same [Zero R] (T : Tools P R) (hq : ∀ S p, ∀ q ∈ T.query S p, q ∈ S) (F : List P) (hF : Apart T F)
    (l other : List (P × P)) (hl : ∀ p ∈ pts l, p ∈ F) (ho : ∀ p ∈ pts other, p ∈ F) :
    adapt T l other = l.filter (hasLength T) := by
  have hnone : ∀ p ∈ F, adopt T (pointsSet other) p = none := by
    intro p hp
    apply nearestOf_none
    intro q hq' hne
    exact hF p hp q (ho q (mem_pointsSet.1 (hq _ _ q hq'))) hne
  have h1 : adaptFirst T (pointsSet other) l = l := by
    cases l with
    | nil => rfl
    | cons s ss =>
      rw [adaptFirst, hnone s.1 (hl s.1 (mem_pts.2 ⟨s, List.mem_cons_self, .inl rfl⟩))]
  rw [adapt, h1, adaptSeconds_same]
  intro s hs
  exact hnone s.2 (hl s.2 (mem_pts.2 ⟨s, hs, .inr rfl⟩))

theorem pts_filter (f : P × P → Bool) (l : List (P × P)) : ∀ p ∈ pts (l.filter f), p ∈ pts l := by
  intro p hp
  obtain ⟨s, hs, h⟩ := mem_pts.1 hp
  exact mem_pts.2 ⟨s, (List.mem_filter.1 hs).1, h⟩

theorem adaptBoth_same [Zero R] (T : Tools P R) (hq : ∀ S p, ∀ q ∈ T.query S p, q ∈ S) (l : List (P × P)) (hF : Apart T (pts l)) :
    adaptBoth T (l, l) = (l.filter (hasLength T), l.filter (hasLength T)) := by
  have e1 := adapt_same T hq (pts l) hF l l (fun p hp => hp) (fun p hp => hp)
  have e2 := adapt_same T hq (pts l) hF (l.filter (hasLength T)) (l.filter (hasLength T))
    (pts_filter _ _) (pts_filter _ _)
  rw [List.filter_filter] at e2
  simp only [Bool.and_self] at e2
  simp only [adaptBoth, e1, e2]

theorem splitAt_pts (T : Tools P R) (l : List (P × P)) (p q : P) : (q ∈ pts l → q ∈ pts (splitAt T l p)) ∧
    (q ∈ pts (splitAt T l p) → q ∈ pts l ∨ q = p) := by
  constructor
  · intro h
    obtain ⟨s, hs, hq⟩ := mem_pts.1 h
    rw [mem_pts]
    by_cases hc : s.1 ≠ p ∧ s.2 ≠ p ∧ T.splits s p
    · rcases hq with rfl | rfl
      · exact ⟨(s.1, p), List.mem_flatMap.2 ⟨s, hs, by rw [if_pos hc]; simp⟩, .inl rfl⟩
      · exact ⟨(p, s.2), List.mem_flatMap.2 ⟨s, hs, by rw [if_pos hc]; simp⟩, .inr rfl⟩
    · exact ⟨s, List.mem_flatMap.2 ⟨s, hs, by rw [if_neg hc]; simp⟩, hq⟩
  · intro h
    obtain ⟨t, ht, hq⟩ := mem_pts.1 h
    obtain ⟨s, hs, hts⟩ := List.mem_flatMap.1 ht
    rw [mem_pts]
    split_ifs at hts with hc
    · simp only [List.mem_cons, List.not_mem_nil, or_false] at hts
      rcases hts with rfl | rfl
      · rcases hq with rfl | rfl
        · exact .inl ⟨s, hs, .inl rfl⟩
        · exact .inr rfl
      · rcases hq with rfl | rfl
        · exact .inr rfl
        · exact .inl ⟨s, hs, .inr rfl⟩
    · simp only [List.mem_cons, List.not_mem_nil, or_false] at hts
      subst hts
      exact .inl ⟨t, hs, hq⟩

theorem foldl_split_pts (T : Tools P R) (ps : List P) : ∀ (l : List (P × P)) (q : P), (q ∈ pts l → q ∈ pts (ps.foldl (splitAt T) l)) ∧
    (q ∈ pts (ps.foldl (splitAt T) l) → q ∈ pts l ∨ q ∈ ps) := by
  induction ps with
  | nil => intro l q; simp
  | cons p ps ih =>
    intro l q
    rw [List.foldl_cons]
    obtain ⟨h1, h2⟩ := ih (splitAt T l p) q
    obtain ⟨h3, h4⟩ := splitAt_pts T l p q
    refine ⟨fun h => h1 (h3 h), fun h => ?_⟩
    rcases h2 h with h | h
    · rcases h4 h with h | h
      · exact .inl h
      · exact .inr (by simp [h])
    · exact .inr (by simp [h])

theorem split_pts (T : Tools P R) (l other : List (P × P)) (hsub : ∀ p ∈ pts other, p ∈ pts l) (q : P) :
    q ∈ pts (split T l other) ↔ q ∈ pts l := by
  obtain ⟨h1, h2⟩ := foldl_split_pts T (pointsSet other) l q
  refine ⟨fun h => ?_, h1⟩
  rcases h2 h with h | h
  · exact h
  · exact hsub q (mem_pointsSet.1 h)

theorem splitBoth_same (T : Tools P R) (l : List (P × P)) : ∃ m, splitBoth T (l, l) = (m, m) ∧ ∀ q, q ∈ pts m ↔ q ∈ pts l := by
  have h1 := split_pts T l l (fun _ h => h)
  have h2 := split_pts T (split T l l) (split T l l) (fun _ h => h)
  have h3 : pointsSet (split T (split T l l) (split T l l)) = pointsSet (split T l l) := pointsSet_congr h2
  refine ⟨split T (split T l l) (split T l l), ?_, fun q => (h2 q).trans (h1 q)⟩
  simp only [splitBoth]
  congr 1
  conv_lhs => rw [split, h3]
  rfl

/-- Equal lines stay equal in the preparation, if their points are apart. -/
theorem prepare_same [Zero R] (T : Tools P R) (hq : ∀ S p, ∀ q ∈ T.query S p, q ∈ S) (l : List (P × P))
    (hF : Apart T (pts (T.simplify l))) : ∃ m, prepare T l l = (m, m) := by
  have e1 := adaptBoth_same T hq (T.simplify l) hF
  obtain ⟨m, e2, hm⟩ := splitBoth_same T ((T.simplify l).filter (hasLength T))
  have hF' : Apart T (pts m) := by
    intro p hp q hq' hne
    exact hF p (pts_filter _ _ p ((hm p).1 hp)) q (pts_filter _ _ q ((hm q).1 hq')) hne
  have e3 := adaptBoth_same T hq m hF'
  exact ⟨m.filter (hasLength T), by rw [prepare, e1, e2, e3]⟩

end Prepare

/-! ### Scores -/

section Score

variable [LinearOrder P] [Field R] [LinearOrder R] [IsStrictOrderedRing R]

theorem compare_cases (T : Tools P R) (a b : List (P × P)) (gt cmp : Option R) (r : Result P R)
    (h : compare T a b gt cmp = .ok r) :
    (a = [] ∧ b = [] ∧ r = ⟨1, some 0, 0, 0, 0, ⟨[], [], []⟩⟩) ∨
    (a = [] ∧ b ≠ [] ∧ r = ⟨0, none, 0, cmp.getD 0, 0, ⟨[], b, []⟩⟩) ∨
    (a ≠ [] ∧ b = [] ∧ r = ⟨0, some 1, 0, 0, gt.getD 0, ⟨[], [], a⟩⟩) ∨
    (a ≠ [] ∧ b ≠ [] ∧ ∃ p, alignment (prepare T a b).1 (prepare T a b).2 = .ok p ∧ r = score T gt cmp p) := by
  cases a with
  | nil =>
    cases b with
    | nil => simp only [compare, Outcome.ok.injEq] at h; exact .inl ⟨rfl, rfl, h.symm⟩
    | cons t b => simp only [compare, Outcome.ok.injEq] at h; exact .inr (.inl ⟨rfl, by simp, h.symm⟩)
  | cons s a =>
    cases b with
    | nil => simp only [compare, Outcome.ok.injEq] at h; exact .inr (.inr (.inl ⟨by simp, rfl, h.symm⟩))
    | cons t b =>
      simp only [compare] at h
      obtain ⟨p, hp, _⟩ := alignment_partial (prepare T (s :: a) (t :: b)).1 (prepare T (s :: a) (t :: b)).2
      rw [hp, Outcome.map_ok, Outcome.ok.injEq] at h
      exact .inr (.inr (.inr ⟨by simp, by simp, p, hp, h.symm⟩))

/-- The comparison always ends with a result. -/
theorem compare_ends (T : Tools P R) (a b : List (P × P)) (gt cmp : Option R) : ∃ r, compare T a b gt cmp = .ok r := by
  cases a with
  | nil => cases b with
    | nil => exact ⟨_, rfl⟩
    | cons t b => exact ⟨_, rfl⟩
  | cons s a => cases b with
    | nil => exact ⟨_, rfl⟩
    | cons t b =>
      obtain ⟨p, hp, _⟩ := alignment_partial (prepare T (s :: a) (t :: b)).1 (prepare T (s :: a) (t :: b)).2
      exact ⟨score T gt cmp p, by simp only [compare]; rw [hp, Outcome.map_ok]⟩

/-- **C34**: the correct fraction is between 0 and 1, and it is 1 if there is no error. -/
theorem correct_range (T : Tools P R) (a b : List (P × P)) (gt cmp : Option R) (r : Result P R)
    (h : compare T a b gt cmp = .ok r) :
    0 ≤ r.correctFraction ∧ r.correctFraction ≤ 1 ∧ (r.errorFraction = some 0 → r.correctFraction = 1) := by
  rcases compare_cases T a b gt cmp r h with ⟨_, _, rfl⟩ | ⟨_, _, rfl⟩ | ⟨_, _, rfl⟩ | ⟨_, _, p, _, rfl⟩
  · exact ⟨zero_le_one, le_refl _, fun _ => rfl⟩
  · exact ⟨le_refl _, zero_le_one, by simp⟩
  · exact ⟨le_refl _, zero_le_one, by simp⟩
  · simp only [score, correctFraction]
    refine ⟨?_, ?_, ?_⟩
    · split_ifs
      · exact zero_le_one
      · exact le_min zero_le_one (le_max_left _ _)
    · split_ifs
      · exact le_refl _
      · exact min_le_left _ _
    · intro h'
      rw [if_pos h']

/-- **C34**: an empty match is not correct, its error is 1; a match without a ground truth is not correct, its error is infinite. -/
theorem compare_empty (T : Tools P R) (a b : List (P × P)) (gt cmp : Option R) (ha : a ≠ []) (hb : b ≠ []) :
    (∃ r, compare T a [] gt cmp = .ok r ∧ r.correctFraction = 0 ∧ r.errorFraction = some 1 ∧ r.parts = ⟨[], [], a⟩ ∧
      r.errorMissed = gt.getD 0) ∧
    (∃ r, compare T [] b gt cmp = .ok r ∧ r.correctFraction = 0 ∧ r.errorFraction = none ∧ r.parts = ⟨[], b, []⟩ ∧
      r.errorAdded = cmp.getD 0) := by
  obtain ⟨s, a, rfl⟩ := List.exists_cons_of_ne_nil ha
  obtain ⟨t, b, rfl⟩ := List.exists_cons_of_ne_nil hb
  exact ⟨⟨_, rfl, rfl, rfl, rfl, rfl⟩, ⟨_, rfl, rfl, rfl, rfl, rfl⟩⟩

/-- **C34**: a line compared with itself is correct without error.
Missing from the full property: lines that have different points within the adoption tolerance after simplification. -/
theorem compare_same_partial (T : Tools P R) (hq : ∀ S p, ∀ q ∈ T.query S p, q ∈ S) (l : List (P × P)) (gt cmp : Option R)
    (hF : Apart T (pts (T.simplify l))) :
    ∃ r, compare T l l gt cmp = .ok r ∧ r.correctFraction = 1 ∧ r.errorFraction = some 0 ∧ r.parts.adds = [] ∧ r.parts.misses = [] := by
  cases l with
  | nil => exact ⟨_, rfl, rfl, rfl, rfl, rfl⟩
  | cons s l =>
    obtain ⟨m, hm⟩ := prepare_same T hq (s :: l) hF
    refine ⟨score T gt cmp ⟨m, [], []⟩, ?_, ?_, ?_, rfl, rfl⟩
    · simp only [compare]
      rw [hm]
      simp only
      rw [alignment_same, Outcome.map_ok]
    · simp [score, total, errorFraction, correctFraction]
    · simp [score, total, errorFraction]

/-- The error is the length of added and missed segments in relation to the length of the ground truth. -/
theorem error_fraction (T : Tools P R) (a b : List (P × P)) {gt : R} (cmp : Option R) (hg : 0 < gt) (ha : a ≠ []) (hb : b ≠ [])
    (r : Result P R) (h : compare T a b (some gt) cmp = .ok r) :
    r.errorFraction = some ((r.errorAdded + r.errorMissed) / gt) ∧
    (r.errorFraction ≠ some 0 → (∃ c, cmp = some c ∧ 0 < c ∧ r.correctFraction = min 1 (max 0 (r.correct / max gt c))) ∨
      (¬ 0 < cmp.getD 0 ∧ r.correctFraction = 0)) := by
  rcases compare_cases T a b (some gt) cmp r h with ⟨h1, _⟩ | ⟨h1, _⟩ | ⟨_, h1, _⟩ | ⟨_, _, p, _, rfl⟩
  · exact absurd h1 ha
  · exact absurd h1 ha
  · exact absurd h1 hb
  · simp only [score]
    constructor
    · rw [errorFraction]
      split_ifs with hc
      · simp only [if_pos hg]
      · rw [not_or, not_not, not_not] at hc
        rw [hc.1, hc.2, add_zero, zero_div]
    · intro hne
      simp only [correctFraction, if_neg hne, rawCorrect, Option.getD_some]
      by_cases hc : 0 < cmp.getD 0
      · left
        cases cmp with
        | none => simp at hc
        | some c =>
          simp only [Option.getD_some] at hc
          refine ⟨c, rfl, hc, ?_⟩
          simp only [Option.getD_some]
          rw [if_pos ⟨hg, hc⟩]
      · right
        refine ⟨hc, ?_⟩
        rw [if_neg (fun h' => hc h'.2), if_neg (fun h' => absurd h'.1 (ne_of_gt hg))]
        simp

end Score

/-- Points on an axis; no simplification. -/
def demo (R : Type) [NatCast R] : Tools Nat R where
  dist p q := ((p - q + (q - p) : Nat) : R)
  tolerance := ((1 : Nat) : R)
  query S _ := S
  splits s p := decide (min s.1 s.2 < p) && decide (p < max s.1 s.2)
  len s := if s.1 = s.2 then none else some ((s.1 - s.2 + (s.2 - s.1) : Nat) : R)
  simplify l := l

example : prepare (demo Nat) [(0, 10), (10, 20)] [(0, 10), (10, 15)] = ([(0, 10), (10, 15), (15, 20)], [(0, 10), (10, 15)]) ∧
    alignment [(0, 10), (10, 15), (15, 20)] [(0, 10), (10, 15)] = .ok (⟨[(0, 10), (10, 15)], [], [(15, 20)]⟩ : Parts Nat) := by decide

example : (score (demo Rat) (some 20) (some 15) ⟨[(0, 10), (10, 15)], [], [(15, 20)]⟩).correctFraction = 3 / 4 ∧
    (score (demo Rat) (some 20) (some 15) ⟨[(0, 10), (10, 15)], [], [(15, 20)]⟩).errorFraction = some (1 / 4) := by
  constructor <;>
    norm_num [score, total, hasLength, demo, errorFraction, correctFraction, rawCorrect]

example : Apart (demo Nat) (pts ((demo Nat).simplify [(0, 10), (10, 20), (20, 10)])) ∧ (∀ S p, ∀ q ∈ (demo Nat).query S p, q ∈ S) :=
  ⟨by unfold Apart; decide, fun _ _ _ h => h⟩

/-- **C34 fails** for lines with points near to each other: a line compared with itself has the added segment 4–0, because the
second list is adapted to the first one after that was changed. -/
theorem compare_same_fails :
    prepare { demo Nat with tolerance := 3 } [(0, 4), (4, 2), (2, 10), (10, 4)] [(0, 4), (4, 2), (2, 10), (10, 4)] =
      ([(0, 4), (4, 10), (10, 4), (4, 0)], [(4, 0), (0, 4), (4, 10), (10, 4), (4, 0)]) ∧
    alignment [(0, 4), (4, 10), (10, 4), (4, 0)] [(4, 0), (0, 4), (4, 10), (10, 4), (4, 0)] =
      .ok (⟨[(4, 10), (10, 4), (4, 0), (0, 4)], [(4, 0)], []⟩ : Parts Nat) ∧
    (score (demo Rat) (some 20) (some 20) ⟨[(4, 10), (10, 4), (4, 0), (0, 4)], [(4, 0)], []⟩).errorFraction = some (1 / 5) := by
  refine ⟨by decide, by decide, ?_⟩
  norm_num [score, total, hasLength, demo, errorFraction]

end MM.Compare
