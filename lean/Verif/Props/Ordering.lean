import Verif.Model.Ordering
import Mathlib.Order.Basic
import Mathlib.Data.Int.Order.Basic

/-!
# C91: points as keys, order of measurements and tracks
-/

set_option autoImplicit false
set_option linter.unusedSectionVars false

namespace MM.Ordering

variable {L : Type} [LinearOrder L]

/-- The values of a point whose coordinates all are numbers. -/
def values : List (Num L) → Option (List L)
  | [] => some []
  | .nan :: _ => none
  | .val v _ :: p => (values p).map (v :: ·)

/-- The first coordinate in which two points differ is less in the first. -/
def Lex (p q : List L) : Prop := ∃ (c : List L) (a b : L) (p' q' : List L), p = c ++ a :: p' ∧ q = c ++ b :: q' ∧ a < b

theorem values_cons {a : Num L} {p : List (Num L)} {v : List L} (h : values (a :: p) = some v) :
    ∃ x s w, a = .val x s ∧ values p = some w ∧ v = x :: w := by
  cases a with
  | nan => simp [values] at h
  | val x s =>
    cases hw : values p with
    | none => simp [values, hw] at h
    | some w => simp [values, hw] at h; exact ⟨x, s, w, rfl, rfl, h.symm⟩

/-- **C91.**  Two points are equal exactly if they have the same coordinates, whatever the representations of zero. -/
theorem eq_iff {p q : List (Num L)} {v w : List L} (hp : values p = some v) (hq : values q = some w) (hl : p.length = q.length) :
    pointEq p q = true ↔ v = w := by
  induction p generalizing q v w with
  | nil =>
    cases q with
    | nil => simp [values] at hp hq; subst hp; subst hq; simp [pointEq]
    | cons b q => simp at hl
  | cons a p ih =>
    cases q with
    | nil => simp at hl
    | cons b q =>
      obtain ⟨x, s, v', rfl, hv, rfl⟩ := values_cons hp
      obtain ⟨y, t, w', rfl, hw, rfl⟩ := values_cons hq
      simp [pointEq, Num.eq, ih hv hw (by simpa using hl)]

theorem lex_cons (x y : L) (v w : List L) : Lex (x :: v) (y :: w) ↔ x < y ∨ (x = y ∧ Lex v w) := by
  constructor
  · rintro ⟨c, a, b, p', q', h1, h2, h3⟩
    cases c with
    | nil =>
      simp only [List.nil_append, List.cons.injEq] at h1 h2
      left; rw [h1.1, h2.1]; exact h3
    | cons z c =>
      simp only [List.cons_append, List.cons.injEq] at h1 h2
      right; exact ⟨h1.1.trans h2.1.symm, c, a, b, p', q', h1.2, h2.2, h3⟩
  · rintro (h | ⟨rfl, c, a, b, p', q', h1, h2, h3⟩)
    · exact ⟨[], x, y, v, w, rfl, rfl, h⟩
    · exact ⟨x :: c, a, b, p', q', by rw [h1]; rfl, by rw [h2]; rfl, h3⟩

/-- **C91.**  One point is less than another exactly if it is less in the first coordinate in which they differ. -/
theorem lt_iff {p q : List (Num L)} {v w : List L} (hp : values p = some v) (hq : values q = some w) (hl : p.length = q.length) :
    pointLt p q = true ↔ Lex v w := by
  induction p generalizing q v w with
  | nil =>
    cases q with
    | nil =>
      simp [values] at hp hq; subst hp; subst hq
      simp [pointLt, Lex]
    | cons b q => simp at hl
  | cons a p ih =>
    cases q with
    | nil => simp at hl
    | cons b q =>
      obtain ⟨x, s, v', rfl, hv, rfl⟩ := values_cons hp
      obtain ⟨y, t, w', rfl, hw, rfl⟩ := values_cons hq
      rw [lex_cons]
      simp [pointLt, Num.lt, Num.eq, ih hv hw (by simpa using hl)]

theorem lex_total {v w : List L} (h : v.length = w.length) : Lex v w ∨ v = w ∨ Lex w v := by
  induction v generalizing w with
  | nil => cases w with
    | nil => exact .inr (.inl rfl)
    | cons y w => simp at h
  | cons x v ih =>
    cases w with
    | nil => simp at h
    | cons y w =>
      simp only [lex_cons]
      rcases lt_trichotomy x y with hlt | rfl | hgt
      · exact .inl (.inl hlt)
      · rcases ih (w := w) (by simpa using h) with h1 | rfl | h1
        · exact .inl (.inr ⟨rfl, h1⟩)
        · exact .inr (.inl rfl)
        · exact .inr (.inr (.inr ⟨rfl, h1⟩))
      · exact .inr (.inr (.inl hgt))

theorem lex_irrefl (v : List L) : ¬ Lex v v := by
  induction v with
  | nil => rintro ⟨c, a, b, p', q', h1, _, _⟩; simp at h1
  | cons x v ih => rw [lex_cons]; rintro (h | ⟨_, h⟩); exact lt_irrefl _ h; exact ih h

theorem lex_trans {u v w : List L} (h1 : Lex u v) (h2 : Lex v w) : Lex u w := by
  induction u generalizing v w with
  | nil => obtain ⟨c, a, b, p', q', h, _, _⟩ := h1; simp at h
  | cons x u ih =>
    cases v with
    | nil => obtain ⟨c, a, b, p', q', h, _, _⟩ := h2; simp at h
    | cons y v =>
      cases w with
      | nil => obtain ⟨c, a, b, p', q', _, h, _⟩ := h2; simp at h
      | cons z w =>
        rw [lex_cons] at h1 h2 ⊢
        rcases h1 with h1 | ⟨rfl, h1⟩
        · rcases h2 with h2 | ⟨rfl, _⟩
          · exact .inl (lt_trans h1 h2)
          · exact .inl h1
        · rcases h2 with h2 | ⟨rfl, h2⟩
          · exact .inl h2
          · exact .inr ⟨rfl, ih h1 h2⟩

theorem values_length {p : List (Num L)} {v : List L} (h : values p = some v) : v.length = p.length := by
  induction p generalizing v with
  | nil => simp [values] at h; subst h; rfl
  | cons a p ih => obtain ⟨x, s, w, rfl, hw, rfl⟩ := values_cons h; simp [ih hw]

/-- **C91.**  The operators order points totally: `<` is transitive, exactly one of `<`, `==`, `>` holds, `!=` (not `==`), `<=` and `>=` mean
what they say.  Missing from the full property: points with a coordinate that is not a number (`nan_fails`). -/
theorem order_partial {p q r : List (Num L)} {v w u : List L} (hp : values p = some v) (hq : values q = some w) (hr : values r = some u)
    (h1 : p.length = q.length) (h2 : q.length = r.length) :
    (pointLt p q = true → pointLt q r = true → pointLt p r = true) ∧
    (pointLt p q = true ∧ pointEq p q = false ∧ pointGt p q = false ∨ pointLt p q = false ∧ pointEq p q = true ∧ pointGt p q = false ∨
      pointLt p q = false ∧ pointEq p q = false ∧ pointGt p q = true) ∧
    (pointLe p q = true ↔ pointLt p q = true ∨ pointEq p q = true) ∧ (pointGe p q = true ↔ pointGt p q = true ∨ pointEq p q = true) := by
  have e := eq_iff hp hq h1
  have l1 := lt_iff hp hq h1
  have l2 := lt_iff hq hp h1.symm
  have l3 := lt_iff hq hr h2
  have l4 := lt_iff hp hr (h1.trans h2)
  have hvl : v.length = w.length := by rw [values_length hp, values_length hq, h1]
  have n1 : v = w → ¬ Lex v w := fun h => h ▸ lex_irrefl v
  have n2 : v = w → ¬ Lex w v := fun h => h ▸ lex_irrefl v
  have n3 : Lex v w → ¬ Lex w v := fun h h' => lex_irrefl v (lex_trans h h')
  have ht := lex_total hvl
  refine ⟨fun a b => l4.2 (lex_trans (l1.1 a) (l3.1 b)), ?_⟩
  unfold pointGt pointLe pointGe
  clear l3 l4
  generalize pointLt p q = A at *
  generalize pointLt q p = B at *
  generalize pointEq p q = E at *
  cases A <;> cases B <;> cases E <;> simp_all

/-- **C91.**  Equal points have equal hashes, whatever the hash of a number and the combination. -/
theorem hash_equal {W : Type} (h : L → W) (hn : W) (mix : W → W → W) (zero : W) {p q : List (Num L)} (hl : p.length = q.length)
    (he : pointEq p q = true) : pointHash h hn mix zero p = pointHash h hn mix zero q := by
  unfold pointHash
  induction p generalizing q zero with
  | nil => cases q with
    | nil => rfl
    | cons b q => simp at hl
  | cons a p ih =>
    cases q with
    | nil => simp at hl
    | cons b q =>
      simp only [pointEq, Bool.and_eq_true] at he
      have : numHash h hn a = numHash h hn b := by
        cases a <;> cases b <;> simp [Num.eq, numHash] at he ⊢
        rw [he.1]
      simp only [List.foldl_cons, this]
      exact ih _ (by simpa using hl) he.2

/-- **C91 fails** (not a number): such a point is not equal to itself, and "neither less" is no equivalence, as sorting demands. -/
theorem nan_fails : pointEq [Num.nan (L := Int)] [.nan] = false ∧ pointLe [Num.nan (L := Int)] [.nan] = true ∧
    pointLt [Num.val (0 : Int) false] [.nan] = false ∧ pointLt [.nan] [Num.val (0 : Int) false] = false ∧
    pointLt [Num.val (1 : Int) false] [.nan] = false ∧ pointLt [.nan] [Num.val (1 : Int) false] = false ∧
    pointLt [Num.val (0 : Int) false] [.val 1 false] = true := by decide

example : values [Num.val (1 : Int) false, .val 0 true] = some [1, 0] ∧ pointEq [Num.val (1 : Int) false, .val 0 true] [.val 1 false, .val 0 false] = true ∧
    pointLt [Num.val (1 : Int) false, .val 0 true] [.val 1 false, .val 2 false] = true ∧ Lex [(1 : Int), 0] [1, 2] :=
  ⟨by decide, by decide, by decide, [1], 0, 2, [], [], rfl, rfl, by decide⟩

/-! ### Measurements -/

/-- **C91.**  Measurements are ordered by their times. -/
theorem measurement_order {P : Type} (a b : Measurement P) : (a.lt b = true ↔ a.time < b.time) ∧ (a.le b = true ↔ a.time ≤ b.time) ∧
    (a.eq b = true ↔ a.time = b.time) ∧ (a.le b = true ↔ a.lt b = true ∨ a.eq b = true) := by
  simp only [Measurement.lt, Measurement.le, Measurement.eq, decide_eq_true_eq, Bool.not_eq_true', decide_eq_false_iff_not]
  refine ⟨trivial, ?_, trivial, ?_⟩ <;> omega

/-- **C91 fails** (measurements): two measurements at different points are equal if their times are. -/
theorem measurement_fails : (⟨5, (0, 0)⟩ : Measurement (Nat × Nat)).eq ⟨5, (7, 7)⟩ = true := by decide

/-! ### Sorting of tracks -/

theorem sortBy_spec {A : Type} (le : A → A → Prop) (ht : ∀ a b c, le a b → le b c → le a c) (hto : ∀ a b, le a b ∨ le b a)
    (less : A → A → Bool) (h : ∀ a b, less b a = false ↔ le a b) (l : List A) :
    (sortBy less l).Perm l ∧ (sortBy less l).Pairwise le := by
  unfold sortBy
  refine ⟨List.perm_insertionSort _ _, ?_⟩
  have : Std.Total (fun a b : A => less b a = false) := ⟨fun a b => by simp only [h]; exact hto a b⟩
  have : IsTrans A (fun a b : A => less b a = false) := ⟨fun a b c => by simp only [h]; exact ht a b c⟩
  exact (List.pairwise_insertionSort _ l).imp (fun h' => (h _ _).1 h')

/-- The number of points of a track, line by line. -/
def points {P : Type} (t : String × List (List P)) : Nat := t.2.flatten.length

theorem sizes_eq {P : Type} (t : List (List P)) : sizes t = t.flatten.length := by
  unfold sizes
  rw [List.length_flatten]

/-- **C91.**  Sorting keeps all tracks and puts those with fewer points first, or those with more. -/
theorem sort_tracks {P : Type} (ts : List (String × List (List P))) :
    (sortTracks true ts).Perm ts ∧ (sortTracks true ts).Pairwise (fun a b => points a ≤ points b) ∧
    (sortTracks false ts).Perm ts ∧ (sortTracks false ts).Pairwise (fun a b => points b ≤ points a) := by
  have h1 := sortBy_spec (fun a b => points a ≤ points b) (by intro a b c; omega) (by intro a b; omega)
    (fun a b => before true a.2 b.2) (by intro a b; simp [before, sizes_eq, points]) ts
  have h2 := sortBy_spec (fun a b => points b ≤ points a) (by intro a b c; omega) (by intro a b; omega)
    (fun a b => before false a.2 b.2) (by intro a b; simp [before, sizes_eq, points]) ts
  exact ⟨h1.1, h1.2, h2.1, h2.2⟩

example : sortTracks true [("a", [[1, 2], [3]]), ("b", [[4]]), ("c", [[5], [6]])] = [("b", [[4]]), ("c", [[5], [6]]), ("a", [[1, 2], [3]])] ∧
    sortTracks false [("b", [[4]]), ("a", [[1, 2], [3]])] = [("a", [[1, 2], [3]]), ("b", [[4]])] := by decide +kernel

/-! ### Tracks from coordinates -/

/-- **C91.**  A track created from coordinates has the points they name in turn, if their number is even. -/
theorem create_partial {A : Type} (ps : List (A × A)) : createTrack (ps.flatMap (fun p => [p.1, p.2])) = .ok ps := by
  induction ps with
  | nil => rfl
  | cons p ps ih => simp [createTrack, ih]

/-- **C91 fails** (coordinates): with an odd number of coordinates the end is read and passed, for all such lists. -/
theorem create_fails {A : Type} (l : List A) (h : l.length % 2 = 1) : createTrack l = .ub := by
  match l with
  | [] => simp at h
  | [_] => rfl
  | x :: y :: l => simp [createTrack, create_fails l (by simp only [List.length_cons] at h; omega)]

example : createTrack [1, 2, 3, 4] = .ok [(1, 2), (3, 4)] ∧ createTrack [1, 2, 3] = .ub := by decide

end MM.Ordering
