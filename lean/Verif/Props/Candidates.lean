import Verif.Model.Candidates
import Mathlib.Algebra.Order.Archimedean.Basic
import Mathlib.Tactic.Linarith
import Mathlib.Tactic.SplitIfs

/-!
# C20 and C21: candidate search and adoption
-/

set_option autoImplicit false
set_option linter.unusedSectionVars false

namespace MM.Cand

/-! ### C20 -/

section Radius
variable {R E : Type} [CommRing R] [LinearOrder R] [IsStrictOrderedRing R]

/-- The index query finds at least what is within the radius (the box contains the circle).  That this is so in the plane is
proved in `Verif.Props.BufferBox`. -/
def Complete (s : Search R E) (edges : List E) : Prop :=
  (∀ r, 0 < r → ∀ e ∈ edges, s.dist e ≤ r → e ∈ s.box r) ∧ ∀ r, 0 < r → ∀ e ∈ s.box r, e ∈ edges

theorem clamp_false (s : Search R E) (cur : R) : clamp s false cur = min cur s.upper := by simp [clamp]

theorem clamp_le (s : Search R E) (a : Bool) (cur : R) : clamp s a cur ≤ s.upper := min_le_right _ _

/-- Any result of the loop: the radius is the one of the last round, all edges lie within, and an empty result means that
the upper limit was reached. -/
theorem search_result (s : Search R E) : ∀ (fuel : Nat) (a : Bool) (cur : R) (prev : List E) (r : R) (es : List E),
    search s fuel a cur prev = some (.ok (r, es)) →
    r ≤ s.upper ∧ (∀ e ∈ es, s.dist e ≤ r) ∧ (es = [] → r = s.upper) ∧
    (s.circle = true → es = (s.box r).filter (fun e => decide (s.dist e ≤ r))) ∧
    (s.circle = false → ∀ e ∈ es, e ∈ prev) := by
  intro fuel
  induction fuel with
  | zero => intro a cur prev r es h; simp [search] at h
  | succ fuel ih =>
    intro a cur prev r es h
    unfold search at h
    split_ifs at h with h1 h2
    · cases h
    · obtain ⟨i1, i2, i3, i4, i5⟩ := ih _ _ _ _ _ h
      refine ⟨i1, i2, i3, i4, ?_⟩
      intro hc e he
      have := i5 hc e he
      simp only [round, hc, Bool.false_eq_true, if_false, List.mem_filter] at this
      exact this.1
    · simp only [Option.some.injEq, Outcome.ok.injEq, Prod.mk.injEq] at h
      obtain ⟨rfl, rfl⟩ := h
      refine ⟨clamp_le s a cur, ?_, ?_, ?_, ?_⟩
      · intro e he
        simp only [round, List.mem_filter, decide_eq_true_eq] at he
        exact he.2
      · intro he
        rw [he] at h2
        simp only [List.isEmpty_nil, Bool.true_and, decide_eq_true_eq, not_lt] at h2
        exact le_antisymm (clamp_le s a cur) h2
      · intro hc; simp [round, hc]
      · intro hc e he
        simp only [round, hc, Bool.false_eq_true, if_false, List.mem_filter] at he
        exact he.1

/-- The radius finally used in mode CIRCLE is positive. -/
theorem search_pos (s : Search R E) (hc : s.circle = true) : ∀ (fuel : Nat) (a : Bool) (cur : R) (prev : List E) (r : R)
    (es : List E), search s fuel a cur prev = some (.ok (r, es)) → 0 < r := by
  intro fuel
  induction fuel with
  | zero => intro a cur prev r es h; simp [search] at h
  | succ fuel ih =>
    intro a cur prev r es h
    unfold search at h
    split_ifs at h with h1 h2
    · cases h
    · exact ih _ _ _ _ _ h
    · simp only [Option.some.injEq, Outcome.ok.injEq, Prod.mk.injEq] at h
      rw [← h.1]
      simpa [hc] using h1

theorem search_ends [Archimedean R] (s : Search R E) (a : Bool) (cur : R) (prev : List E) (hcur : 0 < clamp s a cur) :
    ∃ fuel r es, search s fuel a cur prev = some (.ok (r, es)) := by
  have key : ∀ (n : Nat) (a : Bool) (cur : R) (prev : List E), 0 < clamp s a cur → s.upper ≤ clamp s a cur * 2 ^ n →
      ∃ fuel r es, search s fuel a cur prev = some (.ok (r, es)) := by
    intro n
    induction n with
    | zero =>
      intro a cur prev h0 hn
      refine ⟨1, clamp s a cur, round s (clamp s a cur) prev, ?_⟩
      unfold search
      rw [if_neg (by simp [h0]), if_neg (by simp at hn; simp [hn])]
    | succ n ih =>
      intro a cur prev h0 hn
      by_cases hdone : (round s (clamp s a cur) prev).isEmpty && decide (clamp s a cur < s.upper)
      · have hlt : clamp s a cur < s.upper := by simpa using (by simpa using hdone : _ ∧ _).2
        have hup : 0 < s.upper := lt_of_lt_of_le h0 (clamp_le s a cur)
        have h0' : 0 < clamp s false (clamp s a cur * 2) := by
          rw [clamp_false]; exact lt_min (by linarith) hup
        have hn' : s.upper ≤ clamp s false (clamp s a cur * 2) * 2 ^ n := by
          rw [clamp_false]
          rcases le_total (clamp s a cur * 2) s.upper with hle | hle
          · rw [min_eq_left hle]
            calc s.upper ≤ clamp s a cur * 2 ^ (n + 1) := hn
              _ = clamp s a cur * 2 * 2 ^ n := by rw [pow_succ]; ring
          · rw [min_eq_right hle]
            have : (1 : R) ≤ 2 ^ n := one_le_pow₀ (by linarith)
            nlinarith
        obtain ⟨fuel, r, es, h⟩ := ih false _ (round s (clamp s a cur) prev) h0' hn'
        refine ⟨fuel + 1, r, es, ?_⟩
        rw [search, if_neg (by simp [h0]), if_pos hdone]
        exact h
      · refine ⟨1, clamp s a cur, round s (clamp s a cur) prev, ?_⟩
        rw [search, if_neg (by simp [h0]), if_neg hdone]
  obtain ⟨n, hn⟩ := Archimedean.arch s.upper hcur
  refine key n a cur prev hcur (le_trans hn ?_)
  rw [nsmul_eq_mul, mul_comm]
  refine mul_le_mul_of_nonneg_left ?_ (le_of_lt hcur)
  have h2 : (n : Nat) ≤ 2 ^ n := Nat.le_of_lt Nat.lt_two_pow_self
  calc (n : R) ≤ ((2 ^ n : Nat) : R) := by exact_mod_cast h2
    _ = 2 ^ n := by push_cast; rfl

/-- **C20.**  In mode CIRCLE, if the radius of the first round is positive, the search terminates without exception,
with edges exactly those within the radius finally used, which is at most the upper limit; and the result is non-empty
whenever any edge lies within the upper limit.
Missing from the full property: the mode COMBINED (`combined_empty_fails`) and radii that are not positive
(`zero_radius_fails`). -/
theorem circle_search_partial [Archimedean R] (s : Search R E) (edges : List E) (hc : s.circle = true)
    (hix : Complete s edges) (adaptive : Bool) (hpos : 0 < clamp s adaptive s.radius) :
    ∃ fuel r es, radiusSearch s adaptive fuel = some (.ok (r, es)) ∧ r ≤ s.upper ∧
      (∀ e, e ∈ es ↔ e ∈ edges ∧ s.dist e ≤ r) ∧
      ((∃ e ∈ edges, s.dist e ≤ s.upper) → es ≠ []) := by
  obtain ⟨fuel, r, es, h⟩ := search_ends s adaptive s.radius (if s.circle then [] else s.nearest) hpos
  obtain ⟨h1, h2, h3, h4, -⟩ := search_result s fuel _ _ _ _ _ h
  have hr0 := search_pos s hc fuel _ _ _ _ _ h
  have hes : ∀ e, e ∈ es ↔ e ∈ edges ∧ s.dist e ≤ r := by
    intro e
    rw [h4 hc, List.mem_filter, decide_eq_true_eq]
    constructor
    · intro ⟨a, b⟩; exact ⟨hix.2 r hr0 e a, b⟩
    · intro ⟨a, b⟩; exact ⟨hix.1 r hr0 e a b, b⟩
  refine ⟨fuel, r, es, h, h1, hes, ?_⟩
  intro ⟨e, he, hd⟩ hn
  have hr := h3 hn
  rw [← hr] at hd
  have := (hes e).2 ⟨he, hd⟩
  rw [hn] at this
  cases this

/-- The result does not depend on how long one waits for it. -/
theorem search_stable (s : Search R E) : ∀ (fuel : Nat) (a : Bool) (cur : R) (prev : List E) (x : Outcome (R × List E)),
    search s fuel a cur prev = some x → ∀ k, search s (fuel + k) a cur prev = some x := by
  intro fuel
  induction fuel with
  | zero => intro a cur prev x h; simp [search] at h
  | succ fuel ih =>
    intro a cur prev x h k
    rw [Nat.succ_add]
    unfold search at h ⊢
    split_ifs at h ⊢ with h1 h2
    · exact h
    · exact ih _ _ _ _ h k
    · exact h

/-- What holds in mode COMBINED: it terminates and returns some of the nearest edges, all within the radius used; the
result is non-empty if one of the nearest edges is within the radius of the first round. -/
theorem combined_search_partial [Archimedean R] (s : Search R E) (hc : s.circle = false) (adaptive : Bool)
    (hpos : 0 < clamp s adaptive s.radius) :
    ∃ fuel r es, radiusSearch s adaptive fuel = some (.ok (r, es)) ∧ r ≤ s.upper ∧
      (∀ e ∈ es, e ∈ s.nearest ∧ s.dist e ≤ r) ∧
      ((∃ e ∈ s.nearest, s.dist e ≤ clamp s adaptive s.radius) → es ≠ []) := by
  obtain ⟨fuel, r, es, h⟩ := search_ends s adaptive s.radius (if s.circle then [] else s.nearest) hpos
  obtain ⟨h1, h2, h3, -, h5⟩ := search_result s fuel _ _ _ _ _ h
  have hn := h5 hc
  simp only [hc, Bool.false_eq_true, if_false] at hn
  refine ⟨fuel, r, es, h, h1, fun e he => ⟨hn e he, h2 e he⟩, ?_⟩
  intro ⟨e, he, hd⟩ hnil
  cases fuel with
  | zero => simp [search] at h
  | succ fuel =>
    have hm : e ∈ round s (clamp s adaptive s.radius) s.nearest := by
      simp [round, hc, he, hd]
    rw [search] at h
    simp only [hc, Bool.false_and, Bool.false_eq_true, if_false] at h
    have hne : (round s (clamp s adaptive s.radius) s.nearest).isEmpty = false := by
      cases hr : round s (clamp s adaptive s.radius) s.nearest with
      | nil => rw [hr] at hm; cases hm
      | cons _ _ => rfl
    rw [hne] at h
    simp only [Bool.false_and, Bool.false_eq_true, if_false, Option.some.injEq, Outcome.ok.injEq, Prod.mk.injEq] at h
    rw [h.2, hnil] at hm
    cases hm

end Radius

/-- Three edges at distances 30, 130 and 700. -/
def demoDist (e : Nat) : Int := if e = 0 then 30 else if e = 1 then 130 else 700

def demoSearch (circle : Bool) (radius : Int) (edges : List Nat) : Search Int Nat :=
  ⟨circle, radius, 20, 1000, some 60, none, demoDist, fun _ => edges, edges⟩

example : Complete (demoSearch true 50 [1, 2]) [1, 2] ∧ 0 < clamp (demoSearch true 50 [1, 2]) true 50 :=
  ⟨⟨fun _ _ _ h _ => h, fun _ _ _ h => h⟩, by decide⟩

example : radiusSearch (demoSearch true 50 [1, 2]) true 5 = some (.ok (200, [1])) := by decide

/-- **C20 fails** in mode COMBINED: the edges removed by the first radius are gone, so that doubling the radius up to the
limit finds nothing, although an edge is near and CIRCLE finds it. -/
theorem combined_empty_fails :
    radiusSearch (demoSearch false 50 [1, 2]) true 6 = some (.ok (1000, [])) ∧
    radiusSearch (demoSearch true 50 [1, 2]) true 6 = some (.ok (200, [1])) ∧ demoDist 1 ≤ 50 * 4 := by decide

/-- **C20 fails** for radius zero: with adaptive radius off, CIRCLE throws and COMBINED never ends. -/
theorem zero_radius_fails :
    radiusSearch (demoSearch true 0 [1, 2]) false 1 = some .throws ∧
    ∀ fuel, radiusSearch (demoSearch false 0 [1, 2]) false fuel = none := by
  refine ⟨by decide, ?_⟩
  have key : ∀ fuel (prev : List Nat), (∀ e ∈ prev, 0 < demoDist e) →
      search (demoSearch false 0 [1, 2]) fuel false 0 prev = none := by
    intro fuel
    induction fuel with
    | zero => intro _ _; rfl
    | succ fuel ih =>
      intro prev hp
      have hr : round (demoSearch false 0 [1, 2]) 0 prev = [] := by
        simp only [round, demoSearch, Bool.false_eq_true, if_false, List.filter_eq_nil_iff]
        intro e he hd
        have := hp e he
        have := of_decide_eq_true hd
        omega
      have hcl : clamp (demoSearch false 0 [1, 2]) false 0 = 0 := by decide
      rw [search, hcl, hr]
      simp only [demoSearch, Bool.false_and, Bool.false_eq_true, if_false, List.isEmpty_nil, Bool.true_and]
      rw [if_pos (by decide)]
      exact ih [] (by simp)
  intro fuel
  exact key fuel _ (by decide)

/-! ### C21 -/

section Adopt
variable {R P L : Type} [CommRing R] [LinearOrder R] [DecidableEq P]

theorem mem_insertCE (x y : CE R P L) (l : List (CE R P L)) : y ∈ insertCE x l ↔ y = x ∨ y ∈ l := by
  induction l with
  | nil => simp [insertCE]
  | cons z l ih =>
    unfold insertCE
    split_ifs
    · simp
    · simp only [List.mem_cons, ih]; tauto

theorem own_insertCE (x : CE R P L) (hx : x.adopted = true) (l : List (CE R P L)) : own (insertCE x l) = own l := by
  induction l with
  | nil => simp [insertCE, own, hx]
  | cons z l ih =>
    unfold insertCE
    split_ifs
    · simp [own, hx]
    · simp only [own] at ih ⊢
      rw [List.filter_cons, List.filter_cons, ih]

/-- Two candidates with the same edge and projection. -/
def Twin (a b : CE R P L) : Prop := a.edge = b.edge ∧ a.proj = b.proj

theorem pairwise_insertCE (x : CE R P L) (l : List (CE R P L)) (h : l.Pairwise (fun a b => ¬Twin a b))
    (hx : ∀ y ∈ l, ¬Twin y x) : (insertCE x l).Pairwise (fun a b => ¬Twin a b) := by
  induction l with
  | nil => simp [insertCE]
  | cons z l ih =>
    rw [List.pairwise_cons] at h
    unfold insertCE
    split_ifs
    · rw [List.pairwise_cons]
      refine ⟨?_, List.pairwise_cons.2 h⟩
      intro y hy ht
      exact hx y hy ⟨ht.1.symm, ht.2.symm⟩
    · rw [List.pairwise_cons]
      refine ⟨?_, ih h.2 (fun y hy => hx y (by simp [hy]))⟩
      intro y hy
      rw [mem_insertCE] at hy
      rcases hy with rfl | hy
      · exact hx z (by simp)
      · exact h.1 y hy

/-- How point `i` may come to adopt the candidate `c` of point `j`: as sibling; because the point lies within the longest
distance of its own set (any of its candidates, if reversal is on) of the segment from `j` to the candidate; or, with
reversal, because point `j` lies so to some candidate of `i`. -/
def Link (t : Track R P) (near reverse sibl : Bool) (s0 st : Sets R P L) (i j : Nat) (c : CE R P L) : Prop :=
  i ≠ j ∧ ((sibl = true ∧ (j + 1 = i ∨ i + 1 = j)) ∨
    (near = true ∧ ∃ e ∈ st i, t.segDist (t.pt i) (t.pt j) c.proj ≤ e.dist ∧ (reverse = false → e ∈ s0 i)) ∨
    (near = true ∧ reverse = true ∧ ∃ c' ∈ s0 i, ∃ e ∈ st j, t.segDist (t.pt j) (t.pt i) c'.proj ≤ e.dist))

/-- Sets as they may be during adoption. -/
structure Inv (t : Track R P) (near reverse sibl : Bool) (s0 st : Sets R P L) : Prop where
  keeps : ∀ i, own (st i) = s0 i
  origin : ∀ i, ∀ x ∈ st i, x.adopted = true → ∃ j, ∃ c ∈ s0 j, x = copyFor t i c ∧ Link t near reverse sibl s0 st i j c
  single : ∀ i, (st i).Pairwise (fun a b => ¬Twin a b)
  dist : ∀ i, ∀ x ∈ st i, x.dist = t.d (t.pt i) x.proj

theorem Link.mono {t : Track R P} {near reverse sibl : Bool} {s0 st st' : Sets R P L}
    (h : ∀ i, ∀ e ∈ st i, e ∈ st' i) {i j : Nat} {c : CE R P L} (hl : Link t near reverse sibl s0 st i j c) :
    Link t near reverse sibl s0 st' i j c := by
  obtain ⟨hij, hl⟩ := hl
  refine ⟨hij, ?_⟩
  rcases hl with hl | ⟨hn, e, he, h1⟩ | ⟨hn, hr, c', hc', e, he, h1⟩
  · exact Or.inl hl
  · exact Or.inr (Or.inl ⟨hn, e, h _ e he, h1⟩)
  · exact Or.inr (Or.inr ⟨hn, hr, c', hc', e, h _ e he, h1⟩)

theorem addTo_mono (t : Track R P) (i : Nat) (c : CE R P L) (l : List (CE R P L)) : ∀ e ∈ l, e ∈ addTo t i c l := by
  intro e he
  unfold addTo
  split_ifs
  · exact he
  · exact (mem_insertCE _ _ _).2 (Or.inr he)

theorem add_mono (t : Track R P) (st : Sets R P L) (i : Nat) (c : CE R P L) : ∀ k, ∀ e ∈ st k, e ∈ add t st i c k := by
  intro k e he
  unfold add
  by_cases hk : k = i
  · subst hk; rw [Function.update_self]; exact addTo_mono _ _ _ _ e he
  · rw [Function.update_of_ne hk]; exact he

theorem add_inv {t : Track R P} {near reverse sibl : Bool} {s0 st : Sets R P L} (h : Inv t near reverse sibl s0 st)
    {i j : Nat} {c : CE R P L} (hc : c ∈ s0 j) (hl : Link t near reverse sibl s0 st i j c) :
    Inv t near reverse sibl s0 (add t st i c) := by
  have hmono := add_mono t st i c
  have hset : ∀ k, k ≠ i → add t st i c k = st k := by
    intro k hk; unfold add; rw [Function.update_of_ne hk]
  have hi : add t st i c i = addTo t i c (st i) := by unfold add; rw [Function.update_self]
  have hmem : ∀ x ∈ add t st i c i, x = copyFor t i c ∨ x ∈ st i := by
    intro x hx
    rw [hi] at hx
    unfold addTo at hx
    split_ifs at hx
    · exact Or.inr hx
    · exact (mem_insertCE _ _ _).1 hx
  constructor
  · intro k
    by_cases hk : k = i
    · subst hk
      rw [hi]
      unfold addTo
      split_ifs
      · exact h.keeps k
      · rw [own_insertCE _ rfl]; exact h.keeps k
    · rw [hset k hk]; exact h.keeps k
  · intro k x hx hxa
    by_cases hk : k = i
    · subst hk
      rcases hmem x hx with rfl | hx
      · exact ⟨j, c, hc, rfl, hl.mono hmono⟩
      · obtain ⟨j', c', h1, h2, h3⟩ := h.origin k x hx hxa
        exact ⟨j', c', h1, h2, h3.mono hmono⟩
    · rw [hset k hk] at hx
      obtain ⟨j', c', h1, h2, h3⟩ := h.origin k x hx hxa
      exact ⟨j', c', h1, h2, h3.mono hmono⟩
  · intro k
    by_cases hk : k = i
    · subst hk
      rw [hi]
      unfold addTo
      split_ifs with hany
      · exact h.single k
      · apply pairwise_insertCE _ _ (h.single k)
        intro y hy ht
        apply hany
        rw [List.any_eq_true]
        refine ⟨y, ?_, ?_⟩
        · rw [List.mem_filter, decide_eq_true_eq]
          refine ⟨hy, ?_⟩
          rw [h.dist k y hy, ht.2]; rfl
        · simp [sameCE, ht.1, ht.2]
    · rw [hset k hk]; exact h.single k
  · intro k x hx
    by_cases hk : k = i
    · subst hk
      rcases hmem x hx with rfl | hx
      · rfl
      · exact h.dist k x hx
    · rw [hset k hk] at hx; exact h.dist k x hx

theorem addAll_inv {t : Track R P} {near reverse sibl : Bool} {s0 : Sets R P L} {i j : Nat} :
    ∀ (cs : List (CE R P L)) {st : Sets R P L}, Inv t near reverse sibl s0 st → (∀ c ∈ cs, c ∈ s0 j) →
    (∀ c ∈ cs, Link t near reverse sibl s0 st i j c) →
    Inv t near reverse sibl s0 (addAll t st i cs) ∧ (∀ k, ∀ e ∈ st k, e ∈ addAll t st i cs k) := by
  intro cs
  induction cs with
  | nil => intro st h _ _; exact ⟨h, fun _ _ he => he⟩
  | cons c cs ih =>
    intro st h hc hl
    have h1 := add_inv h (hc c (by simp)) (hl c (by simp))
    have h2 := ih h1 (fun x hx => hc x (by simp [hx])) (fun x hx => (hl x (by simp [hx])).mono (add_mono t st i c))
    exact ⟨h2.1, fun k e he => h2.2 k e (add_mono t st i c k e he)⟩

theorem addAll_other (t : Track R P) (i k : Nat) (hk : k ≠ i) : ∀ (cs : List (CE R P L)) (st : Sets R P L),
    addAll t st i cs k = st k := by
  intro cs
  induction cs with
  | nil => intro st; rfl
  | cons c cs ih =>
    intro st
    show addAll t (add t st i c) i cs k = st k
    rw [ih]; unfold add; rw [Function.update_of_ne hk]

theorem nearbyResult_inv {t : Track R P} {reverse sibl : Bool} {s0 st : Sets R P L} (h : Inv t true reverse sibl s0 st)
    {i : Nat} {x : Nat × CE R P L} (hx : x.2 ∈ s0 x.1) {e : CE R P L} (he : e ∈ st i)
    (hd : t.segDist (t.pt i) (t.pt x.1) x.2.proj ≤ e.dist) (hr : reverse = false → e ∈ s0 i) :
    Inv t true reverse sibl s0 (nearbyResult t reverse i st x) ∧
      (∀ k, ∀ e ∈ st k, e ∈ nearbyResult t reverse i st x k) := by
  unfold nearbyResult
  split_ifs with hix hrev
  · exact ⟨h, fun _ _ he => he⟩
  · have hl : Link t true reverse sibl s0 st i x.1 x.2 := ⟨hix, Or.inr (Or.inl ⟨rfl, e, he, hd, hr⟩)⟩
    have h1 := add_inv h hx hl
    have h2 := addAll_inv (j := i) (i := x.1) (own (add t st i x.2 i)) h1
      (by rw [h1.keeps]; exact fun c hc => hc)
      (by
        intro c _
        exact ⟨fun hh => hix hh.symm, Or.inr (Or.inr ⟨rfl, hrev, x.2, hx, e, add_mono t st i x.2 i e he, hd⟩)⟩)
    exact ⟨h2.1, fun k e he => h2.2 k e (add_mono t st i x.2 k e he)⟩
  · have hl : Link t true reverse sibl s0 st i x.1 x.2 := ⟨hix, Or.inr (Or.inl ⟨rfl, e, he, hd, hr⟩)⟩
    exact ⟨add_inv h hx hl, add_mono t st i x.2⟩

theorem nearbyFold_inv {t : Track R P} {reverse sibl : Bool} {s0 : Sets R P L} {i : Nat} {e : CE R P L}
    (hr : reverse = false → e ∈ s0 i) : ∀ (xs : List (Nat × CE R P L)) {st : Sets R P L}, Inv t true reverse sibl s0 st →
    e ∈ st i → (∀ x ∈ xs, x.2 ∈ s0 x.1 ∧ t.segDist (t.pt i) (t.pt x.1) x.2.proj ≤ e.dist) →
    Inv t true reverse sibl s0 (xs.foldl (nearbyResult t reverse i) st) := by
  intro xs
  induction xs with
  | nil => intro st h _ _; exact h
  | cons x xs ih =>
    intro st h he hx
    have h1 := nearbyResult_inv (sibl := sibl) h (hx x (by simp)).1 he (hx x (by simp)).2 hr
    exact ih h1.1 (h1.2 i e he) (fun y hy => hx y (by simp [hy]))

theorem nearbyPoint_inv {t : Track R P} {reverse sibl : Bool} {s0 st : Sets R P L} (h : Inv t true reverse sibl s0 st)
    {i : Nat} (hst : reverse = false → st i = s0 i) :
    Inv t true reverse sibl s0 (nearbyPoint t reverse (indexOf t s0) st i) := by
  unfold nearbyPoint
  cases hl : (st i).getLast? with
  | none => exact h
  | some c =>
    simp only
    have hc : c ∈ st i := List.mem_of_getLast? hl
    split_ifs
    · apply nearbyFold_inv (e := c) (fun hr => hst hr ▸ hc) _ h hc
      intro x hx
      rw [List.mem_filter, decide_eq_true_eq] at hx
      refine ⟨?_, hx.2⟩
      have := hx.1
      simp only [indexOf, List.mem_flatMap, List.mem_map] at this
      obtain ⟨j, -, c', hc', rfl⟩ := this
      exact (List.mem_filter.1 hc').1
    · exact h

theorem nearbyPoint_other (t : Track R P) (idx : List (Nat × CE R P L)) (st : Sets R P L) (i k : Nat) (hk : k ≠ i) :
    nearbyPoint t false idx st i k = st k := by
  unfold nearbyPoint
  cases (st i).getLast? with
  | none => rfl
  | some c =>
    simp only
    split_ifs
    · generalize idx.filter _ = xs
      induction xs generalizing st with
      | nil => rfl
      | cons x xs ih =>
        rw [List.foldl_cons, ih]
        unfold nearbyResult
        split_ifs
        · rfl
        · simp at *
        · unfold add; rw [Function.update_of_ne hk]
    · rfl

theorem nearby_inv {t : Track R P} {reverse sibl : Bool} {s0 : Sets R P L} (h : Inv t true reverse sibl s0 s0) :
    Inv t true reverse sibl s0 (nearby t reverse s0) := by
  have key : ∀ n, Inv t true reverse sibl s0 ((List.range n).foldl (nearbyPoint t reverse (indexOf t s0)) s0) ∧
      (reverse = false → ∀ k, n ≤ k → (List.range n).foldl (nearbyPoint t reverse (indexOf t s0)) s0 k = s0 k) := by
    intro n
    induction n with
    | zero => exact ⟨h, fun _ _ _ => rfl⟩
    | succ n ih =>
      rw [List.range_succ, List.foldl_append, List.foldl_cons, List.foldl_nil]
      refine ⟨nearbyPoint_inv ih.1 (fun hr => ih.2 hr n (le_refl _)), ?_⟩
      intro hr k hk
      subst hr
      rw [nearbyPoint_other _ _ _ _ _ (by omega)]
      exact ih.2 rfl k (by omega)
  exact (key t.n).1

theorem siblings_inv {t : Track R P} {near reverse : Bool} {s0 st : Sets R P L} (h : Inv t near reverse true s0 st) :
    Inv t near reverse true s0 (siblings t st) := by
  unfold siblings
  generalize List.range t.n = is
  induction is generalizing st with
  | nil => exact h
  | cons i is ih =>
    rw [List.foldl_cons]
    apply ih
    have h1 : Inv t near reverse true s0 (fromPrev t st i) := by
      unfold fromPrev
      split_ifs with hi
      · refine (addAll_inv (j := i - 1) _ h (by rw [h.keeps]; exact fun _ hc => hc) ?_).1
        intro c _
        exact ⟨by omega, Or.inl ⟨rfl, Or.inl (by omega)⟩⟩
      · exact h
    unfold fromNext
    split_ifs with hi
    · refine (addAll_inv (j := i + 1) _ h1 (by rw [h1.keeps]; exact fun _ hc => hc) ?_).1
      intro c _
      exact ⟨by omega, Or.inl ⟨rfl, Or.inr rfl⟩⟩
    · exact h1

/-- Sets as the search leaves them: only own candidates, one per edge, with their distance (333-338, 213-215). -/
structure Fresh (t : Track R P) (s0 : Sets R P L) : Prop where
  notAdopted : ∀ i, ∀ c ∈ s0 i, c.adopted = false
  perEdge : ∀ i, (s0 i).Pairwise (fun a b => a.edge ≠ b.edge)
  dist : ∀ i, ∀ c ∈ s0 i, c.dist = t.d (t.pt i) c.proj

theorem fresh_inv {t : Track R P} {s0 : Sets R P L} (h : Fresh t s0) (near reverse sibl : Bool) :
    Inv t near reverse sibl s0 s0 := by
  constructor
  · intro i
    unfold own
    rw [List.filter_eq_self]
    intro c hc
    simp [h.notAdopted i c hc]
  · intro i x hx hxa
    rw [h.notAdopted i x hx] at hxa; cases hxa
  · intro i
    exact (h.perEdge i).imp (fun hne ht => hne ht.1)
  · exact h.dist

/-- **C21.**  Adoption keeps every point's own candidates, in order, and nothing else that is not marked as adopted;
every adopted candidate is a candidate found for another point that is a sibling, or within the longest distance, as
configured, with its own distance; and no candidate (edge and projection) occurs twice.
Missing from the full property: a single representative per edge, which is false (`per_edge_fails`). -/
theorem adoption_sound_partial (t : Track R P) (near reverse sibl : Bool) (s0 : Sets R P L) (h : Fresh t s0) :
    (∀ i, own (adopt t near reverse sibl s0 i) = s0 i) ∧
    (∀ i, ∀ x ∈ adopt t near reverse sibl s0 i, x.adopted = true → ∃ j, ∃ c ∈ s0 j, x.edge = c.edge ∧ x.proj = c.proj ∧ x.lines = c.lines ∧
      x.dist = t.d (t.pt i) c.proj ∧ Link t near reverse sibl s0 (adopt t near reverse sibl s0) i j c) ∧
    (∀ i, (adopt t near reverse sibl s0 i).Pairwise (fun a b => ¬Twin a b)) := by
  have hinv : Inv t near reverse sibl s0 (adopt t near reverse sibl s0) := by
    unfold adopt
    split_ifs with hs hn hn
    · subst hs; subst hn; exact siblings_inv (nearby_inv (fresh_inv h _ _ _))
    · subst hs; exact siblings_inv (fresh_inv h _ _ _)
    · subst hn; exact nearby_inv (fresh_inv h _ _ _)
    · exact fresh_inv h _ _ _
  refine ⟨hinv.keeps, ?_, hinv.single⟩
  intro i x hx hxa
  obtain ⟨j, c, hc, rfl, hl⟩ := hinv.origin i x hx hxa
  exact ⟨j, c, hc, rfl, rfl, rfl, rfl, hl⟩

/-- Siblings adopt completely: every own candidate of an adjacent point is present afterwards. -/
theorem siblings_complete (t : Track R P) (near reverse : Bool) (s0 : Sets R P L) (h : Fresh t s0) (i j : Nat) (hi : i < t.n)
    (hj : j < t.n) (hij : j + 1 = i ∨ i + 1 = j) (c : CE R P L) (hc : c ∈ s0 j) :
    ∃ x ∈ adopt t near reverse true s0 i, Twin x c := by
  have hinv : Inv t near reverse true s0 (if near then nearby t reverse s0 else s0) := by
    split_ifs with hn
    · subst hn; exact nearby_inv (fresh_inv h _ _ _)
    · exact fresh_inv h _ _ _
  have has : ∀ (cs : List (CE R P L)) (st : Sets R P L), c ∈ cs → ∃ x ∈ addAll t st i cs i, Twin x c := by
    intro cs
    induction cs with
    | nil => intro st hm; cases hm
    | cons y cs ih =>
      intro st hm
      rcases List.mem_cons.1 hm with rfl | hm
      · have hadd : ∃ x ∈ add t st i c i, Twin x c := by
          unfold add
          rw [Function.update_self]
          unfold addTo
          split_ifs with hany
          · rw [List.any_eq_true] at hany
            obtain ⟨x, hx, hs⟩ := hany
            simp only [sameCE, copyFor, Bool.and_eq_true, beq_iff_eq] at hs
            exact ⟨x, (List.mem_filter.1 hx).1, hs.1, of_decide_eq_true hs.2⟩
          · exact ⟨_, (mem_insertCE _ _ _).2 (Or.inl rfl), rfl, rfl⟩
        obtain ⟨x, hx, ht⟩ := hadd
        refine ⟨x, ?_, ht⟩
        show x ∈ addAll t (add t st i c) i cs i
        clear ih hm
        generalize add t st i c = st' at hx
        induction cs generalizing st' with
        | nil => exact hx
        | cons z zs ih2 => exact ih2 _ (add_mono t st' i z i x hx)
      · exact ih _ hm
  have mono : ∀ (cs : List (CE R P L)) (st : Sets R P L) (k m : Nat) (x : CE R P L), x ∈ st k → x ∈ addAll t st m cs k := by
    intro cs
    induction cs with
    | nil => intro st k m x hx; exact hx
    | cons z zs ih => intro st k m x hx; exact ih _ k m x (add_mono t st m z k x hx)
  have monoP : ∀ (st : Sets R P L) (k m : Nat) (x : CE R P L), x ∈ st k → x ∈ fromPrev t st m k := by
    intro st k m x hx; unfold fromPrev; split_ifs
    · exact mono _ _ _ _ _ hx
    · exact hx
  have monoN : ∀ (st : Sets R P L) (k m : Nat) (x : CE R P L), x ∈ st k → x ∈ fromNext t st m k := by
    intro st k m x hx; unfold fromNext; split_ifs
    · exact mono _ _ _ _ _ hx
    · exact hx
  have step : ∀ st, Inv t near reverse true s0 st → ∃ x ∈ fromNext t (fromPrev t st i) i i, Twin x c := by
    intro st hst
    rcases hij with hji | hji
    · obtain ⟨x, hx, ht⟩ := has (own (st (i - 1))) st (by rw [hst.keeps, show i - 1 = j by omega]; exact hc)
      refine ⟨x, monoN _ _ _ _ ?_, ht⟩
      unfold fromPrev
      rw [if_pos (by omega)]; exact hx
    · have hown : own (fromPrev t st i (i + 1)) = s0 j := by
        unfold fromPrev
        split_ifs
        · rw [addAll_other _ _ _ (by omega), hst.keeps, hji]
        · rw [hst.keeps, hji]
      obtain ⟨x, hx, ht⟩ := has (own (fromPrev t st i (i + 1))) (fromPrev t st i) (by rw [hown]; exact hc)
      refine ⟨x, ?_, ht⟩
      unfold fromNext
      rw [if_pos (by omega)]; exact hx
  have sibInv : ∀ (is : List Nat) (st : Sets R P L), Inv t near reverse true s0 st →
      i ∈ is → ∃ x ∈ is.foldl (fun st i => fromNext t (fromPrev t st i) i) st i, Twin x c := by
    intro is
    induction is with
    | nil => intro st _ hm; cases hm
    | cons k is ih =>
      intro st hst hm
      rw [List.foldl_cons]
      have hinvk : Inv t near reverse true s0 (fromNext t (fromPrev t st k) k) := by
        have h1 : Inv t near reverse true s0 (fromPrev t st k) := by
          unfold fromPrev
          split_ifs with hi
          · refine (addAll_inv (j := k - 1) _ hst (by rw [hst.keeps]; exact fun _ hc => hc) ?_).1
            intro c _
            exact ⟨by omega, Or.inl ⟨rfl, Or.inl (by omega)⟩⟩
          · exact hst
        unfold fromNext
        split_ifs with hi
        · refine (addAll_inv (j := k + 1) _ h1 (by rw [h1.keeps]; exact fun _ hc => hc) ?_).1
          intro c _
          exact ⟨by omega, Or.inl ⟨rfl, Or.inr rfl⟩⟩
        · exact h1
      rcases List.mem_cons.1 hm with rfl | hm
      · obtain ⟨x, hx, ht⟩ := step st hst
        refine ⟨x, ?_, ht⟩
        clear ih hm hinvk
        generalize fromNext t (fromPrev t st i) i = st' at hx
        induction is generalizing st' with
        | nil => exact hx
        | cons z zs ih2 => exact ih2 _ (monoN _ _ _ _ (monoP _ _ _ _ hx))
      · exact ih _ hinvk hm
  have := sibInv (List.range t.n) _ hinv (List.mem_range.2 hi)
  unfold adopt
  rw [if_pos rfl]
  exact this

/-! ### Order -/

/-- In order of distance. -/
def Ordered (l : List (CE R P L)) : Prop := l.Pairwise (fun a b => a.dist ≤ b.dist)

theorem insertCE_ordered (x : CE R P L) (l : List (CE R P L)) (h : Ordered l) : Ordered (insertCE x l) := by
  induction l with
  | nil => simp [insertCE, Ordered]
  | cons y l ih =>
    rw [Ordered, List.pairwise_cons] at h
    unfold insertCE
    split_ifs with hlt
    · rw [Ordered, List.pairwise_cons]
      refine ⟨?_, List.pairwise_cons.2 h⟩
      intro z hz
      rcases List.mem_cons.1 hz with rfl | hz
      · exact hlt.le
      · exact hlt.le.trans (h.1 z hz)
    · rw [Ordered, List.pairwise_cons]
      refine ⟨?_, ih h.2⟩
      intro z hz
      rcases (mem_insertCE _ _ _).1 hz with rfl | hz
      · exact not_lt.1 hlt
      · exact h.1 z hz

theorem insertCE_equals (x : CE R P L) (l : List (CE R P L)) (h : Ordered l) :
    (insertCE x l).filter (fun y => decide (y.dist = x.dist)) = l.filter (fun y => decide (y.dist = x.dist)) ++ [x] ∧
      ∀ d, d ≠ x.dist → (insertCE x l).filter (fun y => decide (y.dist = d)) = l.filter (fun y => decide (y.dist = d)) := by
  induction l with
  | nil => exact ⟨by simp [insertCE], fun d hd => by simp [insertCE, Ne.symm hd]⟩
  | cons y l ih =>
    rw [Ordered, List.pairwise_cons] at h
    obtain ⟨h1, h2⟩ := ih h.2
    unfold insertCE
    split_ifs with hlt
    · refine ⟨?_, fun d hd => by rw [List.filter_cons, if_neg (by simpa using Ne.symm hd)]⟩
      have hno : (y :: l).filter (fun y => decide (y.dist = x.dist)) = [] := by
        rw [List.filter_eq_nil_iff]
        intro z hz
        rcases List.mem_cons.1 hz with rfl | hz
        · simpa using hlt.ne'
        · simpa using (lt_of_lt_of_le hlt (h.1 z hz)).ne'
      rw [List.filter_cons, if_pos (by simp), hno, List.nil_append]
    · refine ⟨?_, fun d hd => by rw [List.filter_cons, List.filter_cons, h2 d hd]⟩
      rw [List.filter_cons, List.filter_cons, h1]
      split_ifs <;> simp

/-- **C21, candidates that are equally far.**  A candidate that is adopted comes after all that are as far, and those of any distance stay in
their order. -/
theorem add_equals (t : Track R P) (st : Sets R P L) (i : Nat) (c : CE R P L) (h : Ordered (st i)) : add t st i c i = st i ∨
    ∃ x : CE R P L, x.adopted = true ∧ x.edge = c.edge ∧ x.proj = c.proj ∧
      (add t st i c i).filter (fun y => decide (y.dist = x.dist)) = (st i).filter (fun y => decide (y.dist = x.dist)) ++ [x] ∧
      ∀ d, d ≠ x.dist → (add t st i c i).filter (fun y => decide (y.dist = d)) = (st i).filter (fun y => decide (y.dist = d)) := by
  unfold add
  rw [Function.update_self]
  unfold addTo
  split_ifs
  · exact .inl rfl
  · exact .inr ⟨copyFor t i c, rfl, rfl, rfl, insertCE_equals _ _ h⟩

theorem add_ordered (t : Track R P) (st : Sets R P L) (i : Nat) (c : CE R P L) (h : ∀ k, Ordered (st k)) :
    ∀ k, Ordered (add t st i c k) := by
  intro k
  unfold add
  by_cases hk : k = i
  · subst hk
    rw [Function.update_self]
    unfold addTo
    split_ifs
    · exact h k
    · exact insertCE_ordered _ _ (h k)
  · rw [Function.update_of_ne hk]; exact h k

theorem addAll_ordered (t : Track R P) (i : Nat) (cs : List (CE R P L)) : ∀ st : Sets R P L, (∀ k, Ordered (st k)) →
    ∀ k, Ordered (addAll t st i cs k) := by
  induction cs with
  | nil => intro st h; exact h
  | cons c cs ih => intro st h; exact ih _ (add_ordered t st i c h)

theorem foldl_keeps {α β : Type} {Q : β → Prop} {f : β → α → β} (hf : ∀ b a, Q b → Q (f b a)) (l : List α) :
    ∀ b, Q b → Q (l.foldl f b) := by
  induction l with
  | nil => intro b h; exact h
  | cons a l ih => intro b h; exact ih _ (hf b a h)

/-- **C21, order.**  Whatever is adopted, the candidates of each point stay in order of distance. -/
theorem adopt_ordered (t : Track R P) (near reverse sibl : Bool) (s0 : Sets R P L) (h : ∀ i, Ordered (s0 i)) :
    ∀ i, Ordered (adopt t near reverse sibl s0 i) := by
  have hn : ∀ s : Sets R P L, (∀ i, Ordered (s i)) → ∀ i, Ordered (nearby t reverse s i) := by
    intro s hs
    refine foldl_keeps (Q := fun st : Sets R P L => ∀ i, Ordered (st i)) ?_ _ s hs
    intro st i hst
    show ∀ k, Ordered (nearbyPoint t reverse (indexOf t s) st i k)
    unfold nearbyPoint
    cases (st i).getLast? with
    | none => exact hst
    | some c =>
      simp only
      split_ifs
      · refine foldl_keeps (Q := fun st : Sets R P L => ∀ i, Ordered (st i)) ?_ _ st hst
        intro st' x hst'
        unfold nearbyResult
        split_ifs
        · exact hst'
        · exact addAll_ordered _ _ _ _ (add_ordered _ _ _ _ hst')
        · exact add_ordered _ _ _ _ hst'
      · exact hst
  have hsib : ∀ s : Sets R P L, (∀ i, Ordered (s i)) → ∀ i, Ordered (siblings t s i) := by
    intro s hs
    refine foldl_keeps (Q := fun st : Sets R P L => ∀ i, Ordered (st i)) ?_ _ s hs
    intro st i hst
    have h1 : ∀ k, Ordered (fromPrev t st i k) := by
      unfold fromPrev
      split_ifs
      · exact addAll_ordered _ _ _ _ hst
      · exact hst
    unfold fromNext
    split_ifs
    · exact addAll_ordered _ _ _ _ h1
    · exact h1
  unfold adopt
  split_ifs
  · exact hsib _ (hn _ h)
  · exact hsib _ h
  · exact hn _ h
  · exact h

/-- The same sets for the points of the track. -/
def Agree (t : Track R P) (s s' : Sets R P L) : Prop := ∀ i, i < t.n → s i = s' i

theorem foldl_agree {α : Type} {t : Track R P} {f : Sets R P L → α → Sets R P L} : ∀ (l : List α) {s s' : Sets R P L},
    (∀ x ∈ l, ∀ s s', Agree t s s' → Agree t (f s x) (f s' x)) → Agree t s s' → Agree t (l.foldl f s) (l.foldl f s') := by
  intro l
  induction l with
  | nil => intro s s' _ h; exact h
  | cons x l ih =>
    intro s s' hf h
    exact ih (fun y hy => hf y (List.mem_cons_of_mem _ hy)) (hf x (by simp) s s' h)

theorem add_agree {t : Track R P} {s s' : Sets R P L} (h : Agree t s s') {i : Nat} (hi : i < t.n) (c : CE R P L) :
    Agree t (add t s i c) (add t s' i c) := by
  intro k hk
  unfold add
  by_cases hik : k = i
  · subst hik; rw [Function.update_self, Function.update_self, h k hk]
  · rw [Function.update_of_ne hik, Function.update_of_ne hik, h k hk]

theorem addAll_agree {t : Track R P} {s s' : Sets R P L} (h : Agree t s s') {i : Nat} (hi : i < t.n) (cs : List (CE R P L)) :
    Agree t (addAll t s i cs) (addAll t s' i cs) :=
  foldl_agree cs (fun c _ _ _ h => add_agree h hi c) h

/-- **C21.**  Adoption looks at the candidates of the points of the track only: what is beyond does not matter. -/
theorem adopt_inside (t : Track R P) (near reverse sibl : Bool) {s s' : Sets R P L} (h : ∀ i, i < t.n → s i = s' i) :
    ∀ i, i < t.n → adopt t near reverse sibl s i = adopt t near reverse sibl s' i := by
  have hidx : ∀ {s s' : Sets R P L}, Agree t s s' → indexOf t s = indexOf t s' := by
    intro s s' h
    unfold indexOf
    exact List.flatMap_congr fun j hj => by rw [h j (List.mem_range.1 hj)]
  have hin : ∀ (s : Sets R P L), ∀ x ∈ indexOf t s, x.1 < t.n := by
    intro s x hx
    unfold indexOf at hx
    obtain ⟨j, hj, hx⟩ := List.mem_flatMap.1 hx
    obtain ⟨c, _, rfl⟩ := List.mem_map.1 hx
    exact List.mem_range.1 hj
  have hnear : ∀ {s s' : Sets R P L}, Agree t s s' → Agree t (nearby t reverse s) (nearby t reverse s') := by
    intro s s' h
    unfold nearby
    rw [← hidx h]
    refine foldl_agree _ (fun i hi a a' ha => ?_) h
    have hi' := List.mem_range.1 hi
    unfold nearbyPoint
    rw [← ha i hi']
    cases (a i).getLast? with
    | none => exact ha
    | some c =>
      simp only
      split_ifs
      · refine foldl_agree _ (fun x hx b b' hb => ?_) ha
        have hx' := hin s x (List.mem_filter.1 hx).1
        unfold nearbyResult
        split_ifs
        · exact hb
        · have h1 := add_agree hb hi' x.2
          rw [← h1 i hi']
          exact addAll_agree h1 hx' _
        · exact add_agree hb hi' x.2
      · exact ha
  have hsib : ∀ {s s' : Sets R P L}, Agree t s s' → Agree t (siblings t s) (siblings t s') := by
    intro s s' h
    unfold siblings
    refine foldl_agree _ (fun i hi a a' ha => ?_) h
    have hi' := List.mem_range.1 hi
    have h1 : Agree t (fromPrev t a i) (fromPrev t a' i) := by
      unfold fromPrev
      split_ifs
      · rw [← ha (i - 1) (by omega)]; exact addAll_agree ha hi' _
      · exact ha
    unfold fromNext
    split_ifs with hn
    · rw [← h1 (i + 1) hn]; exact addAll_agree h1 hi' _
    · exact h1
  show Agree t _ _
  unfold adopt
  split_ifs
  · exact hsib (hnear h)
  · exact hsib h
  · exact hnear h
  · exact h

end Adopt

/-- Three points on a line of integers; candidates are on the edge 7 (and 8 for the last point). -/
def demoTrack : Track Int Int :=
  ⟨3, fun i => 10 * i, fun a b => |a - b|, fun p a b => if (a ≤ p ∧ p ≤ b) ∨ (b ≤ p ∧ p ≤ a) then 0 else
    min (|p - a|) (|p - b|)⟩

def demoSets : Sets Int Int Unit := fun i =>
  if i = 0 then [⟨false, 7, 1, 1, ()⟩] else if i = 1 then [⟨false, 7, 12, 2, ()⟩] else if i = 2 then [⟨false, 8, 9, 11, ()⟩] else []

example : Fresh demoTrack demoSets := by
  constructor
  · intro i c hc; unfold demoSets at hc; split_ifs at hc <;> simp at hc <;> simp [hc]
  · intro i; unfold demoSets; split_ifs <;> simp
  · intro i c hc
    unfold demoSets at hc
    split_ifs at hc with h0 h1 h2
    · simp at hc; subst hc; subst h0; rfl
    · simp at hc; subst hc; subst h1; rfl
    · simp at hc; subst hc; subst h2; rfl
    · cases hc

/-- The first point adopts the candidate of the second as sibling; the second those of both neighbours. -/
example : adopt demoTrack false false true demoSets 0 = [⟨false, 7, 1, 1, ()⟩, ⟨true, 7, 12, 12, ()⟩] ∧
    adopt demoTrack false false true demoSets 1 = [⟨true, 8, 9, 1, ()⟩, ⟨false, 7, 12, 2, ()⟩, ⟨true, 7, 1, 9, ()⟩] := by decide

example : ∀ i, Ordered (demoSets i) := by
  intro i; unfold demoSets Ordered; split_ifs <;> simp

/-- Two candidates that are as far as the one that is added. -/
example : add demoTrack (fun _ => [⟨false, 1, 9, 1, ()⟩, ⟨false, 2, 11, 1, ()⟩]) 1 ⟨false, 8, 9, 3, ()⟩ 1 =
    [⟨false, 1, 9, 1, ()⟩, ⟨false, 2, 11, 1, ()⟩, ⟨true, 8, 9, 1, ()⟩] := by decide

/-- The nearby adoption is limited by distance: the second point adopts the third point's candidate only. -/
example : adopt demoTrack true false false demoSets 1 = [⟨true, 8, 9, 1, ()⟩, ⟨false, 7, 12, 2, ()⟩] := by decide

/-- **C21, per edge, fails**: adopted candidates are distinguished by projection, so that a point has the same edge twice,
once on its own and once adopted. -/
theorem per_edge_fails :
    (adopt demoTrack false false true demoSets 0).map (fun c => c.edge) = [7, 7] := by decide

/-- Sets that differ beyond the track. -/
example : adopt demoTrack true true true demoSets 2 = adopt demoTrack true true true (fun i => if i = 3 then [⟨false, 9, 30, 0, ()⟩] else demoSets i) 2 :=
  adopt_inside demoTrack true true true (fun i hi => by
    have : i ≠ 3 := by rintro rfl; exact absurd hi (by decide)
    simp [this]) 2 (by decide)

end MM.Cand
