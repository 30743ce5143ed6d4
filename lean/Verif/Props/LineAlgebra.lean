import Verif.Model.RichLine
import Mathlib.Data.List.Chain
import Mathlib.Data.List.Forall2
import Mathlib.Tactic.SplitIfs

/-!
# C26, C28: merging, slicing and erasing points of lines
-/

set_option autoImplicit false
set_option linter.unusedSectionVars false

namespace MM.Line

variable {P : Type} [DecidableEq P]

/-- The end of `a` is the start of `b`. -/
def Meets (a b : List P) : Prop := a.getLast? = b.head?

/-- The lines that have points. -/
def nonempty (ls : List (List P)) : List (List P) := ls.filter (fun l => decide (l ≠ []))

/-- The first line followed by the others without their first point. -/
def joined : List (List P) → List P
  | [] => []
  | l :: ls => l ++ ls.flatMap List.tail

theorem mergeSingle_nil (l : List P) : mergeSingle l [] = .ok l := rfl

theorem mergeSingle_empty (n : List P) : mergeSingle [] n = .ok n := by
  cases n <;> rfl

theorem mergeSingle_meets {l n : List P} (hl : l ≠ []) (hn : n ≠ []) (h : Meets l n) :
    mergeSingle l n = .ok (l ++ n.tail) := by
  obtain ⟨q, rest, rfl⟩ := List.exists_cons_of_ne_nil hn
  have : l.getLast? = some q := h
  simp [mergeSingle, this]

theorem mergeSingle_apart {l n : List P} (hl : l ≠ []) (hn : n ≠ []) (h : ¬ Meets l n) :
    mergeSingle l n = .throws := by
  obtain ⟨q, rest, rfl⟩ := List.exists_cons_of_ne_nil hn
  have hl' : l.getLast? = some (l.getLast hl) := List.getLast?_eq_getLast_of_ne_nil hl
  have hne : l.getLast hl ≠ q := by
    intro hh
    apply h
    rw [Meets, hl', hh]
    rfl
  simp [mergeSingle, hl', hne]

theorem getLast?_join {l n : List P} (hn : n ≠ []) (h : Meets l n) : (l ++ n.tail).getLast? = n.getLast? := by
  obtain ⟨q, rest, rfl⟩ := List.exists_cons_of_ne_nil hn
  cases rest with
  | nil => simpa [Meets] using h
  | cons r rest =>
    have : (r :: rest).getLast? = some ((r :: rest).getLast (by simp)) := List.getLast?_eq_getLast_of_ne_nil (by simp)
    rw [List.tail_cons, List.getLast?_append, this]
    simp [this, List.getLast?_cons_cons]

theorem merge_nonempty_left (ns : List (List P)) : ∀ l : List P, l ≠ [] →
    ((l :: nonempty ns).IsChain Meets → merge l ns = .ok (joined (l :: nonempty ns))) ∧
    (¬ (l :: nonempty ns).IsChain Meets → merge l ns = .throws) := by
  induction ns with
  | nil => intro l hl; simp [merge, nonempty, joined]
  | cons n ns ih =>
    intro l hl
    rw [merge]
    by_cases hn : n = []
    · subst hn
      rw [mergeSingle_nil, Outcome.bind_ok]
      simpa [nonempty] using ih l hl
    · have hne : nonempty (n :: ns) = n :: nonempty ns := by simp [nonempty, hn]
      rw [hne]
      by_cases hm : Meets l n
      · rw [mergeSingle_meets hl hn hm, Outcome.bind_ok]
        have hlast := getLast?_join hn hm
        have key : ((l ++ n.tail) :: nonempty ns).IsChain Meets ↔ (l :: n :: nonempty ns).IsChain Meets := by
          rw [List.isChain_cons_cons]
          cases hns : nonempty ns with
          | nil => simp [hm]
          | cons m ms =>
            rw [List.isChain_cons_cons, List.isChain_cons_cons]
            simp [Meets, hlast, hm]
            intro _ _
            exact hm
        obtain ⟨h1, h2⟩ := ih (l ++ n.tail) (by simp [hl])
        refine ⟨fun h => ?_, fun h => h2 (fun hh => h (key.1 hh))⟩
        rw [h1 (key.2 h)]
        simp [joined]
      · rw [mergeSingle_apart hl hn hm, Outcome.bind_throws]
        refine ⟨fun h => ?_, fun _ => rfl⟩
        rw [List.isChain_cons_cons] at h
        exact absurd h.1 hm

/-- **C26, meeting.**  Lines attach exactly if the one ends with the point with which the other begins; no line attaches to an empty
one, nor an empty one to any. -/
theorem attaches_iff (a b : List P) : attaches a b = true ↔ ∃ p xs ys, a = xs ++ [p] ∧ b = p :: ys := by
  unfold attaches
  rcases List.eq_nil_or_concat a with rfl | ⟨xs, p, rfl⟩
  · simp
  · cases b with
    | nil => simp
    | cons q ys =>
      simp only [List.concat_eq_append, List.getLast?_concat, List.head?_cons, decide_eq_true_eq]
      constructor
      · rintro rfl
        exact ⟨p, xs, ys, rfl, rfl⟩
      · rintro ⟨r, xs', ys', h1, h2⟩
        have := (List.append_inj' h1 rfl).2
        cases this
        cases h2
        rfl

example : attaches [1, 2] [2, 3] = true ∧ attaches [1, 2] [1, 2] = false ∧ attaches ([] : List Nat) [] = false := by decide

/-- **C26, merging.**  If all lines with points follow each other, merging gives the first line and the others without
their first point; otherwise it throws. -/
theorem merge_concat (l : List P) (ns : List (List P)) :
    ((nonempty (l :: ns)).IsChain Meets → merge l ns = .ok (joined (nonempty (l :: ns)))) ∧
    (¬ (nonempty (l :: ns)).IsChain Meets → merge l ns = .throws) := by
  by_cases hl : l = []
  · subst hl
    have h0 : nonempty ([] :: ns) = nonempty ns := by simp [nonempty]
    rw [h0]
    induction ns with
    | nil => simp [nonempty, merge, joined]
    | cons n ns ih =>
      rw [merge]
      by_cases hn : n = []
      · subst hn
        have h1 : nonempty ([] :: ns) = nonempty ns := by simp [nonempty]
        rw [mergeSingle_nil, Outcome.bind_ok, h1]
        exact ih h1
      · have hne : nonempty (n :: ns) = n :: nonempty ns := by simp [nonempty, hn]
        rw [mergeSingle_empty, Outcome.bind_ok, hne]
        exact merge_nonempty_left ns n hn
  · have hne : nonempty (l :: ns) = l :: nonempty ns := by simp [nonempty, hl]
    rw [hne]
    exact merge_nonempty_left ns l hl

theorem merge_append (as bs : List (List P)) : ∀ l : List P, merge l (as ++ bs) = (merge l as).bind (fun r => merge r bs) := by
  induction as with
  | nil => intro l; rfl
  | cons a as ih =>
    intro l
    rw [List.cons_append, merge, merge]
    cases mergeSingle l a with
    | ok r => simp only [Outcome.bind_ok]; exact ih r
    | throws => rfl
    | ub => rfl

theorem merge_keeps_head {x r : List P} {g : List (List P)} (hx : x ≠ []) (h : merge x g = .ok r) :
    r ≠ [] ∧ r.head? = x.head? := by
  induction g generalizing x with
  | nil => simp only [merge, Outcome.ok.injEq] at h; subst h; exact ⟨hx, rfl⟩
  | cons n g ih =>
    rw [merge] at h
    by_cases hn : n = []
    · subst hn; exact ih hx (by simpa [mergeSingle_nil] using h)
    · by_cases hm : Meets x n
      · rw [mergeSingle_meets hx hn hm, Outcome.bind_ok] at h
        obtain ⟨h1, h2⟩ := ih (x := x ++ n.tail) (by simp [hx]) h
        refine ⟨h1, h2.trans ?_⟩
        obtain ⟨y, ys, rfl⟩ := List.exists_cons_of_ne_nil hx
        rfl
      · rw [mergeSingle_apart hx hn hm] at h
        cases h

theorem merge_shift {x r l : List P} {g : List (List P)} (hx : x ≠ []) (hl : l ≠ []) (hm : Meets l x) (h : merge x g = .ok r) :
    merge (l ++ x.tail) g = .ok (l ++ r.tail) := by
  induction g generalizing x with
  | nil => simp only [merge, Outcome.ok.injEq] at h; subst h; rfl
  | cons n g ih =>
    rw [merge] at h
    rw [merge]
    by_cases hn : n = []
    · subst hn
      rw [mergeSingle_nil, Outcome.bind_ok] at h ⊢
      exact ih hx hm h
    · by_cases hxn : Meets x n
      · rw [mergeSingle_meets hx hn hxn, Outcome.bind_ok] at h
        have hlx : Meets (l ++ x.tail) n := (getLast?_join hx hm).trans hxn
        rw [mergeSingle_meets (by simp [hl]) hn hlx, Outcome.bind_ok]
        obtain ⟨y, ys, rfl⟩ := List.exists_cons_of_ne_nil hx
        have := ih (x := (y :: ys) ++ n.tail) (by simp) hm h
        simpa using this
      · rw [mergeSingle_apart hx hn hxn] at h
        cases h

theorem merge_as_single {l r : List P} {g : List (List P)} (h : merge [] g = .ok r) : merge l g = mergeSingle l r := by
  by_cases hl : l = []
  · subst hl; rw [h, mergeSingle_empty]
  · induction g with
    | nil => simp only [merge, Outcome.ok.injEq] at h; subst h; rfl
    | cons n g ih =>
      rw [merge, mergeSingle_empty, Outcome.bind_ok] at h
      rw [merge]
      by_cases hn : n = []
      · subst hn
        rw [mergeSingle_nil, Outcome.bind_ok]
        exact ih h
      · obtain ⟨hr, hh⟩ := merge_keeps_head hn h
        by_cases hm : Meets l n
        · rw [mergeSingle_meets hl hn hm, Outcome.bind_ok, merge_shift hn hl hm h,
            mergeSingle_meets hl hr (by rw [Meets, hh]; exact hm)]
        · rw [mergeSingle_apart hl hn hm, Outcome.bind_throws,
            mergeSingle_apart hl hr (by rw [Meets, hh]; exact hm)]

/-- **C26, grouping.**  Merging in groups and then merging the results is the same as merging everything at once, whether
it succeeds or throws. -/
theorem merge_grouping (l : List P) {gs : List (List (List P))} {rs : List (List P)}
    (h : List.Forall₂ (fun g r => merge [] g = .ok r) gs rs) : merge l gs.flatten = merge l rs := by
  induction h generalizing l with
  | nil => rfl
  | @cons g r gs rs hgr _ ih =>
    rw [List.flatten_cons, merge_append, merge_as_single hgr, merge]
    cases mergeSingle l r with
    | ok x => simp only [Outcome.bind_ok]; exact ih x
    | throws => rfl
    | ub => rfl

/-- Two streets of two pieces each, with an empty and a single-point line in between. -/
example : merge [0, 1] [[], [1, 2], [2], [2, 3, 4]] = .ok [0, 1, 2, 3, 4] ∧ merge [0, 1] [[2, 3]] = .throws ∧
    (nonempty [[0, 1], [], [1, 2], [2], [2, 3, 4]]).IsChain Meets := by
  refine ⟨by decide, by decide, ?_⟩
  simp [nonempty, Meets]

example : List.Forall₂ (fun g r => merge ([] : List Nat) g = .ok r) [[[0, 1], [1, 2]], [[]], [[2, 3]]] [[0, 1, 2], [], [2, 3]] := by
  refine .cons (by decide) (.cons (by decide) (.cons (by decide) .nil))

/-- **C26, sizes.**  The announced size is the size of the merged line. -/
theorem merge_size {l r : List P} {ns : List (List P)} (h : merge l ns = .ok r) : newSize l ns = r.length := by
  unfold newSize
  induction ns generalizing l with
  | nil => simp only [merge, Outcome.ok.injEq] at h; subst h; rfl
  | cons n ns ih =>
    rw [merge] at h
    rw [List.foldl_cons]
    by_cases hn : n = []
    · subst hn
      exact ih (by simpa [mergeSingle_nil] using h)
    · by_cases hl : l = []
      · subst hl
        rw [mergeSingle_empty, Outcome.bind_ok] at h
        rw [← ih h]
        congr 1
        have : 1 ≤ n.length := List.length_pos_iff.2 hn
        simp only [addSize, if_pos this, List.length_nil, if_true]
        omega
      · by_cases hm : Meets l n
        · rw [mergeSingle_meets hl hn hm, Outcome.bind_ok] at h
          rw [← ih h]
          congr 1
          have : 1 ≤ n.length := List.length_pos_iff.2 hn
          have hl' : l.length ≠ 0 := fun hh => hl (List.length_eq_zero_iff.1 hh)
          simp [addSize, if_pos this, hl', List.length_append, List.length_tail]
        · rw [mergeSingle_apart hl hn hm] at h
          cases h

/-- **C26, slices.**  Two slices that share a point merge to the slice over both, and the slice over everything is the
line itself; other ranges throw. -/
theorem slices_merge {l : List P} {a m b : Nat} (h1 : a ≤ m) (h2 : m < b) (h3 : b ≤ l.length) :
    ∃ s t, subLine l a (m + 1) = .ok s ∧ subLine l m b = .ok t ∧ merge s [t] = subLine l a b ∧
      subLine l 0 l.length = .ok l := by
  refine ⟨_, _, if_pos ⟨by omega, by omega, by omega⟩, if_pos ⟨by omega, by omega, by omega⟩, ?_, ?_⟩
  · have hs : (l.drop a).take (m + 1 - a) ≠ [] := by
      intro hh
      have := congrArg List.length hh
      simp at this
      omega
    have ht : (l.drop m).take (b - m) ≠ [] := by
      intro hh
      have := congrArg List.length hh
      simp at this
      omega
    have hm : Meets ((l.drop a).take (m + 1 - a)) ((l.drop m).take (b - m)) := by
      unfold Meets
      rw [List.getLast?_eq_getElem?, List.head?_eq_getElem?]
      have hlen : ((l.drop a).take (m + 1 - a)).length = m + 1 - a := by simp; omega
      rw [hlen, List.getElem?_take, List.getElem?_take, if_pos (by omega), if_pos (by omega), List.getElem?_drop,
        List.getElem?_drop]
      congr 1
      omega
    rw [merge, mergeSingle_meets hs ht hm, Outcome.bind_ok, merge, subLine, if_pos ⟨by omega, by omega, h3⟩]
    congr 1
    apply List.ext_getElem?
    intro i
    have hlen : ((l.drop a).take (m + 1 - a)).length = m + 1 - a := by simp; omega
    rw [List.getElem?_append, hlen]
    split_ifs with hi
    · rw [List.getElem?_take, List.getElem?_take, if_pos hi, if_pos (by omega)]
    · rw [List.getElem?_tail, List.getElem?_take, List.getElem?_take]
      by_cases hib : i < b - a
      · rw [if_pos hib, if_pos (by omega), List.getElem?_drop, List.getElem?_drop]
        congr 1
        omega
      · rw [if_neg hib, if_neg (by omega)]
  · rw [subLine, if_pos ⟨by omega, by omega, Nat.le_refl _⟩]
    simp

theorem slice_out_of_range {l : List P} {a b : Nat} (h : b < a ∨ l.length ≤ a ∨ l.length < b) : subLine l a b = .throws := by
  rw [subLine, if_neg]
  omega

example : subLine [0, 1, 2, 3, 4] 1 3 = .ok [1, 2] ∧ subLine [0, 1, 2, 3, 4] 2 5 = .ok [2, 3, 4] ∧
    merge [1, 2] [[2, 3, 4]] = subLine [0, 1, 2, 3, 4] 1 5 := by decide

/-- The points whose positions, counted from `k`, are not in `is`. -/
def keepFrom (k : Nat) (l : List P) (is : List Nat) : List P :=
  ((l.zipIdx k).filter (fun p => decide (p.2 ∉ is))).map Prod.fst

theorem keepFrom_cons (k : Nat) (x : P) (l : List P) (is : List Nat) :
    keepFrom k (x :: l) is = if k ∈ is then keepFrom (k + 1) l is else x :: keepFrom (k + 1) l is := by
  unfold keepFrom
  rw [List.zipIdx_cons, List.filter_cons]
  by_cases h : k ∈ is <;> simp [h]

theorem keepFrom_drop_small (k i : Nat) (hik : i < k) (l : List P) (is : List Nat) :
    keepFrom k l (i :: is) = keepFrom k l is := by
  induction l generalizing k with
  | nil => rfl
  | cons x l ih =>
    rw [keepFrom_cons, keepFrom_cons, ih (k + 1) (by omega)]
    have : k ∈ i :: is ↔ k ∈ is := by
      simp only [List.mem_cons]
      constructor
      · rintro (h | h)
        · omega
        · exact h
      · exact .inr
    simp only [this]

theorem keepFrom_erase (d k : Nat) (l : List P) (is : List Nat) (h : ∀ j ∈ is, k + d < j) :
    eraseAt (keepFrom k l is) d = keepFrom k l ((k + d) :: is) := by
  induction l generalizing k d with
  | nil => simp [keepFrom, eraseAt]
  | cons x l ih =>
    have hk : k ∉ is := fun hh => by have := h k hh; omega
    rw [keepFrom_cons, keepFrom_cons, if_neg hk]
    cases d with
    | zero =>
      simp only [Nat.add_zero, List.mem_cons, true_or, if_true]
      rw [keepFrom_drop_small (k + 1) k (by omega)]
      simp [eraseAt]
    | succ d =>
      have hk' : k ∉ (k + (d + 1)) :: is := by
        simp only [List.mem_cons, not_or]
        exact ⟨by omega, hk⟩
      rw [if_neg hk']
      have := ih d (k + 1) (fun j hj => by have := h j hj; omega)
      have he : k + 1 + d = k + (d + 1) := by omega
      rw [he] at this
      rw [← this]
      unfold eraseAt
      simp only [List.length_cons, List.eraseIdx_cons_succ]
      by_cases hlt : d < (keepFrom (k + 1) l is).length
      · rw [if_pos hlt, if_pos (by omega)]
      · rw [if_neg hlt, if_neg (by omega)]

/-- **C26, erasing.**  Erasing a sorted list of indices keeps exactly the points at the other positions, in order; indices
beyond the end are ignored. -/
theorem erase_keeps_others (l : List P) {is : List Nat} (h : is.Pairwise (· < ·)) :
    eraseAll l is = ((l.zipIdx).filter (fun p => decide (p.2 ∉ is))).map Prod.fst := by
  have key : ∀ is : List Nat, is.Pairwise (· < ·) → eraseAll l is = keepFrom 0 l is := by
    intro is
    induction is with
    | nil =>
      intro _
      have : ∀ k, keepFrom k l [] = l := by
        induction l with
        | nil => intro k; rfl
        | cons x l ih => intro k; rw [keepFrom_cons, ih]; simp
      simp [eraseAll, this]
    | cons i is ih =>
      intro hs
      obtain ⟨h1, h2⟩ := List.pairwise_cons.1 hs
      have := keepFrom_erase i 0 l is (by intro j hj; have := h1 j hj; omega)
      rw [Nat.zero_add] at this
      rw [← this, ← ih h2]
      simp [eraseAll, List.foldl_append]
  exact key is h

example : eraseAll [10, 11, 12, 13, 14] [0, 2, 3] = [11, 14] ∧ eraseAll [10, 11, 12] [1, 7] = [10, 12] := by decide

/-! ### C28 -/

theorem gap_iff {a b : List P} : gap a b = true ↔ a ≠ [] ∧ b ≠ [] ∧ ¬ Meets a b := by
  cases b with
  | nil => cases h : a.getLast? <;> simp [gap, h]
  | cons q b =>
    cases h : a.getLast? with
    | none =>
      rw [List.getLast?_eq_none_iff] at h
      subst h
      simp [gap]
    | some p =>
      have ha : a ≠ [] := by rintro rfl; simp at h
      simp [gap, Meets, h, ha]

/-- What the loop does: the ranges make up the list, within a range no gap between neighbours is left, and ranges are
separated by gaps. -/
theorem splitGroups_spec (ns : List (List P)) : ∀ (group : List (List P)) (prev : List P),
    group.getLast? = some prev → group.IsChain (fun a b => gap a b = false) →
    (splitGroups group prev ns).flatten = group ++ ns ∧
    (∀ g ∈ splitGroups group prev ns, g ≠ [] ∧ g.IsChain (fun a b => gap a b = false)) ∧
    (splitGroups group prev ns).IsChain (fun g h => ∃ a b, g.getLast? = some a ∧ h.head? = some b ∧ gap a b = true) ∧
    ∃ g gs, splitGroups group prev ns = g :: gs ∧ g.head? = group.head? := by
  induction ns with
  | nil =>
    intro group prev hl hc
    have hne : group ≠ [] := by rintro rfl; simp at hl
    simp [splitGroups, hc, hne]
  | cons n ns ih =>
    intro group prev hl hc
    have hne : group ≠ [] := by rintro rfl; simp at hl
    rw [splitGroups]
    split_ifs with hg
    · obtain ⟨h1, h2, h3, g, gs, h4, h5⟩ := ih [n] n (by simp) (by simp)
      refine ⟨by simp [h1], ?_, ?_, group, _, rfl, rfl⟩
      · intro x hx
        rcases List.mem_cons.1 hx with rfl | hx
        · exact ⟨hne, hc⟩
        · exact h2 x hx
      · rw [h4] at h3 ⊢
        rw [List.isChain_cons_cons]
        exact ⟨⟨prev, n, hl, by simpa using h5, hg⟩, h3⟩
    · obtain ⟨h1, h2, h3, g, gs, h4, h5⟩ := ih (group ++ [n]) n (by simp) (by
        rw [List.isChain_append]
        refine ⟨hc, by simp, ?_⟩
        intro x hx y hy
        rw [hl] at hx
        simp at hx hy
        subst hx hy
        simpa using hg)
      refine ⟨by simp [h1], h2, h3, g, gs, h4, ?_⟩
      rw [h5]
      cases group with
      | nil => exact absurd rfl hne
      | cons a group => rfl

/-- Lines next to each other, apart from empty lines in between, meet if there is an empty line in between. -/
def NoHiddenGap (lines : List (List P)) : Prop :=
  ∀ a es b, (a :: (es ++ [b])) <:+: lines → es ≠ [] → (∀ e ∈ es, e = []) → a ≠ [] → b ≠ [] → Meets a b

theorem chain_of_no_gap (g : List (List P)) (hc : g.IsChain (fun a b => gap a b = false)) (hh : NoHiddenGap g) :
    (nonempty g).IsChain Meets := by
  induction g with
  | nil => simp [nonempty]
  | cons a g ih =>
    have hc' : g.IsChain (fun a b => gap a b = false) := hc.tail
    have hh' : NoHiddenGap g := fun a' es b hi => hh a' es b (hi.trans (List.infix_cons (List.infix_refl g)))
    have := ih hc' hh'
    by_cases ha : a = []
    · subst ha; simpa [nonempty] using this
    · have hne : nonempty (a :: g) = a :: nonempty g := by simp [nonempty, ha]
      rw [hne]
      cases hng : nonempty g with
      | nil => simp
      | cons b bs =>
        rw [hng] at this
        rw [List.isChain_cons_cons]
        refine ⟨?_, this⟩
        -- the first line with points in `g`
        have hsplit : ∀ g : List (List P), nonempty g = b :: bs → ∃ es post, g = es ++ b :: post ∧ (∀ e ∈ es, e = []) ∧ b ≠ [] := by
          intro g
          induction g with
          | nil => intro h; simp [nonempty] at h
          | cons c g ih' =>
            intro h
            by_cases hc : c = []
            · subst hc
              have h' : nonempty g = b :: bs := by simpa [nonempty] using h
              obtain ⟨es, post, h1, h2, h3⟩ := ih' h'
              refine ⟨[] :: es, post, by simp [h1], ?_, h3⟩
              intro e he
              rcases List.mem_cons.1 he with rfl | he
              · rfl
              · exact h2 e he
            · have h' : c :: nonempty g = b :: bs := by simpa [nonempty, hc] using h
              injection h' with h1 h2
              subst h1
              exact ⟨[], g, rfl, by simp, hc⟩
        obtain ⟨es, post, h1, h2, h3⟩ := hsplit g hng
        by_cases hes : es = []
        · subst hes
          rw [h1, List.nil_append, List.isChain_cons_cons] at hc
          by_contra hcon
          have := gap_iff.2 ⟨ha, h3, hcon⟩
          rw [hc.1] at this
          cases this
        · refine hh a es b ⟨[], post, ?_⟩ hes h2 ha h3
          rw [h1]
          simp

theorem mergeGroups_ok (gs : List (List (List P))) : ∀ acc, (∀ g ∈ gs, (nonempty g).IsChain Meets) →
    mergeGroups acc gs = .ok (acc ++ gs.map (fun g => joined (nonempty g))) := by
  induction gs with
  | nil => intro acc _; simp [mergeGroups]
  | cons g gs ih =>
    intro acc h
    have h0 : nonempty ([] :: g) = nonempty g := by simp [nonempty]
    have := (merge_concat [] g).1 (by rw [h0]; exact h g List.mem_cons_self)
    rw [mergeGroups, this, Outcome.bind_ok, ih _ (fun x hx => h x (List.mem_cons_of_mem _ hx)), h0]
    simp

theorem joined_getLast? (ls : List (List P)) (hc : ls.IsChain Meets) (hne : ∀ l ∈ ls, l ≠ []) {x : List P}
    (hl : ls.getLast? = some x) : (joined ls).getLast? = x.getLast? := by
  cases ls with
  | nil => simp at hl
  | cons l ls =>
    have key : ∀ (ls : List (List P)) (l : List P), l ≠ [] → (l :: ls).IsChain Meets → (∀ m ∈ ls, m ≠ []) →
        (l :: ls).getLast? = some x → (joined (l :: ls)).getLast? = x.getLast? := by
      intro ls
      induction ls with
      | nil => intro l _ _ _ h; simp at h; subst h; simp [joined]
      | cons m ms ih =>
        intro l hln hc hne h
        rw [List.isChain_cons_cons] at hc
        have hm : m ≠ [] := hne m List.mem_cons_self
        have hj : joined (l :: m :: ms) = joined ((l ++ m.tail) :: ms) := by simp [joined]
        have hlast := getLast?_join hm hc.1
        rw [hj]
        cases ms with
        | nil => simp at h; subst h; simpa [joined] using hlast
        | cons k ms =>
          rw [List.isChain_cons_cons] at hc
          refine ih (l ++ m.tail) (by simp [hln]) ?_ (fun z hz => hne z (List.mem_cons_of_mem _ hz)) (by simpa using h)
          rw [List.isChain_cons_cons]
          exact ⟨hlast.trans hc.2.1, hc.2.2⟩
    exact key ls l (hne l List.mem_cons_self) hc (fun m hm => hne m (List.mem_cons_of_mem _ hm)) hl

theorem joined_head? (ls : List (List P)) (hne : ∀ l ∈ ls, l ≠ []) {x : List P} (hl : ls.head? = some x) :
    (joined ls).head? = x.head? := by
  cases ls with
  | nil => simp at hl
  | cons l ls =>
    simp at hl
    subst hl
    obtain ⟨y, ys, hy⟩ := List.exists_cons_of_ne_nil (hne l List.mem_cons_self)
    simp [joined, hy]

/-- **C28.**  Lines are appended to a multi line as follows: the list is cut into ranges, in order and with nothing left
out; the lines of a range follow each other and are joined; between two resulting lines there is a gap.
Missing from the full property: gaps across empty lines (`hidden_gap_fails`). -/
theorem multi_merge_partial (acc : List (List P)) {lines : List (List P)} (h : NoHiddenGap lines) :
    ∃ groups : List (List (List P)), groups.flatten = lines ∧ (∀ g ∈ groups, (nonempty g).IsChain Meets) ∧
      multiMerge acc lines = .ok (acc ++ groups.map (fun g => joined (nonempty g))) ∧
      (groups.map (fun g => joined (nonempty g))).IsChain (fun r s => r ≠ [] ∧ s ≠ [] ∧ r.getLast? ≠ s.head?) := by
  cases lines with
  | nil =>
    exact ⟨[[]], rfl, by simp [nonempty], by simp [multiMerge, groupsOf, mergeGroups, merge, nonempty, joined], by simp⟩
  | cons n ns =>
    obtain ⟨h1, h2, h3, -⟩ := splitGroups_spec ns [n] n (by simp) (by simp)
    have hch : ∀ g ∈ splitGroups [n] n ns, (nonempty g).IsChain Meets := by
      intro g hg
      refine chain_of_no_gap g (h2 g hg).2 ?_
      intro a es b hi
      apply h a es b
      refine hi.trans ?_
      have : g <:+: (splitGroups [n] n ns).flatten := by
        obtain ⟨s, t, hst⟩ := List.append_of_mem hg
        rw [hst]
        exact ⟨s.flatten, t.flatten, by simp⟩
      rw [h1] at this
      exact this
    refine ⟨splitGroups [n] n ns, by simpa using h1, hch, mergeGroups_ok _ acc hch, ?_⟩
    rw [List.isChain_map]
    have hboth : (splitGroups [n] n ns).IsChain (fun g h => (g ∈ splitGroups [n] n ns ∧ h ∈ splitGroups [n] n ns) ∧
        ∃ a b, g.getLast? = some a ∧ h.head? = some b ∧ gap a b = true) := by
      have : ∀ l : List (List (List P)), (∀ x ∈ l, x ∈ splitGroups [n] n ns) →
          l.IsChain (fun g h => ∃ a b, g.getLast? = some a ∧ h.head? = some b ∧ gap a b = true) →
          l.IsChain (fun g h => (g ∈ splitGroups [n] n ns ∧ h ∈ splitGroups [n] n ns) ∧
            ∃ a b, g.getLast? = some a ∧ h.head? = some b ∧ gap a b = true) := by
        intro l
        induction l with
        | nil => intro _ _; simp
        | cons x l ih =>
          intro hm hc
          cases l with
          | nil => simp
          | cons y l =>
            rw [List.isChain_cons_cons] at hc ⊢
            exact ⟨⟨⟨hm x (by simp), hm y (by simp)⟩, hc.1⟩, ih (fun z hz => hm z (List.mem_cons_of_mem _ hz)) hc.2⟩
      exact this _ (fun x hx => hx) h3
    refine hboth.imp ?_
    rintro g k ⟨⟨hg, hk⟩, a, b, hga, hkb, hgap⟩
    obtain ⟨ha, hb, hab⟩ := gap_iff.1 hgap
    have hgl : (nonempty g).getLast? = some a := by
      obtain ⟨pre, rfl⟩ := List.getLast?_eq_some_iff.1 hga
      simp [nonempty, ha]
    have hkl : (nonempty k).head? = some b := by
      cases k with
      | nil => simp at hkb
      | cons y k => simp at hkb; subst hkb; simp [nonempty, hb]
    have hne : ∀ (g : List (List P)), ∀ l ∈ nonempty g, l ≠ [] := by
      intro g l hl
      simpa using (List.mem_filter.1 hl).2
    have e1 := joined_getLast? (nonempty g) (hch g hg) (hne g) hgl
    have e2 := joined_head? (nonempty k) (hne k) hkl
    refine ⟨?_, ?_, ?_⟩
    · intro hh; rw [hh] at e1; exact ha (List.getLast?_eq_none_iff.1 e1.symm)
    · intro hh; rw [hh] at e2; exact hb (List.head?_eq_none_iff.1 e2.symm)
    · rw [e1, e2]; exact hab

example : multiMerge [[9]] [[0, 1], [1, 2], [5, 6], [], [6, 7], [8]] = .ok [[9], [0, 1, 2], [5, 6, 7], [8]] := by decide

/-- **C28 fails** when a gap is hidden by an empty line: the merge throws instead of splitting. -/
theorem hidden_gap_fails : multiMerge [] [[0, 1], [], [5, 6]] = .throws ∧ multiMerge [] [[0, 1], [5, 6]] = .ok [[0, 1], [5, 6]] := by
  decide

end MM.Line
