import Verif.Props.Compare
import Verif.Props.BufferBox

/-!
# C93: preparing lines for a comparison
-/

set_option autoImplicit false
set_option linter.unusedSectionVars false

namespace MM.Compare

/-- The segments lead from a point to another one without gaps. -/
def Path {P : Type} : P → List (P × P) → P → Prop
  | p, [], q => p = q
  | p, s :: ss, q => s.1 = p ∧ Path s.2 ss q

/-- The segments are those of a line. -/
def Connected {P : Type} (l : List (P × P)) : Prop := l = [] ∨ ∃ p q, Path p l q

section Adapt

variable {P K : Type} [LinearOrder P] [LinearOrder K] [Field K] [IsStrictOrderedRing K]

/-- What a point becomes: the nearest other point if one is nearer than the tolerance, otherwise it stays. -/
def Adopted (T : Tools P K) (S : List P) (p z : P) : Prop :=
  (z ≠ p ∧ z ∈ S ∧ T.dist p z < T.tolerance ∧ ∀ q ∈ S, q ≠ p → T.dist p z ≤ T.dist p q) ∨
  (z = p ∧ ∀ q ∈ S, q ≠ p → T.tolerance ≤ T.dist p q)

/-- The index reports points of the list, and all within the tolerance (`MM.BufferBox.compare_within`). -/
def Finds (T : Tools P K) : Prop := ∀ S p, (∀ q ∈ T.query S p, q ∈ S) ∧ ∀ q ∈ S, T.dist p q < T.tolerance → q ∈ T.query S p

theorem adopt_adopted {T : Tools P K} (hT : Finds T) (S : List P) (p : P) : Adopted T S p ((adopt T S p).getD p) := by
  obtain ⟨h1, h2⟩ := MM.BufferBox.nearestOf_spec T p (T.query S p) none (by simp)
  cases ha : adopt T S p with
  | some z =>
    obtain ⟨a1, a2, a3, -, a5⟩ := h1 z ha
    refine .inl ⟨a2, ?_, a3, fun q hq hp => ?_⟩
    · rcases a1 with a1 | a1
      · exact (hT S p).1 z a1
      · cases a1
    · by_cases hlt : T.dist p q < T.tolerance
      · exact a5 q ((hT S p).2 q hq hlt) hp
      · exact a3.le.trans (not_lt.1 hlt)
  | none =>
    refine .inr ⟨rfl, fun q hq hp => ?_⟩
    by_contra hlt
    exact hlt ((h2 ha).2 q ((hT S p).2 q hq (not_le.1 hlt)) hp)

theorem startAt_path {p q z : P} {l : List (P × P)} (h : Path p l q) (hl : l ≠ []) : Path z (startAt z l) q := by
  cases l with
  | nil => exact absurd rfl hl
  | cons t ts =>
    obtain ⟨_, h2⟩ := h
    simp only [startAt]
    split
    · next ht => exact ⟨ht, h2⟩
    · exact ⟨rfl, h2⟩

/-- All seconds after the first segment: every point is replaced as it should be. -/
theorem adaptSeconds_map (T : Tools P K) (S : List P) (n : Nat) : ∀ (p0 p q : P) (l : List (P × P)), l.length ≤ n → Path p l q →
    p = (adopt T S p0).getD p0 →
    ∀ l0, Path p0 l0 q → l = startAt p l0 →
      adaptSeconds T S n false l = l0.map (fun s => ((adopt T S s.1).getD s.1, (adopt T S s.2).getD s.2)) := by
  induction n with
  | zero =>
    intro p0 p q l hn _ _ l0 _ hl
    have : l = [] := List.length_eq_zero_iff.1 (by omega)
    subst this
    cases l0 with
    | nil => rfl
    | cons t ts => simp [startAt] at hl
  | succ n ih =>
    intro p0 p q l hn hp hp0 l0 h0 hl
    cases l0 with
    | nil => subst hl; rfl
    | cons t ts =>
      obtain ⟨h1, h2⟩ := h0
      have hl' : l = (p, t.2) :: ts := by
        rw [hl]
        simp only [startAt]
        split
        · next ht => rw [← ht]
        · rfl
      rw [hl']
      simp only [adaptSeconds]
      rw [hl'] at hn hp
      simp only [List.length_cons] at hn
      cases ha : adopt T S t.2 with
      | none =>
        simp only [List.map_cons, ha, h1, ← hp0, Option.getD_none]
        rw [ih t.2 t.2 q ts (by omega) h2 (by rw [ha]; rfl) ts h2 ?_]
        cases ts with
        | nil => rfl
        | cons u us => simp only [startAt]; rw [if_pos h2.1]
      | some z =>
        simp only [List.map_cons, ha, h1, ← hp0, Option.getD_some, Bool.false_and, Bool.false_eq_true, if_false]
        cases hts : ts with
        | nil => cases n <;> rfl
        | cons u us =>
          rw [← hts]
          rw [ih t.2 z q (startAt z ts) ?_ (startAt_path h2 (by rw [hts]; simp)) (by rw [ha]; rfl) ts h2 rfl]
          rw [hts]
          simp only [startAt, List.length_cons]
          rw [hts] at hn
          simpa using hn

/-- **C93, points.**  Every point of a line that has another point of the other line nearer than the tolerance becomes the nearest of them,
all other points stay; segments without length are dropped.
Missing: lines whose first segment shrinks to a point (`adapt_start_fails`). -/
theorem adapt_points_partial {T : Tools P K} (hT : Finds T) {l other : List (P × P)} (hl : Connected l)
    (hfirst : ∀ s, l.head? = some s → ∀ z, Adopted T (pointsSet other) s.1 z → adopt T (pointsSet other) s.2 ≠ some z) :
    ∃ l', List.Forall₂ (fun s t => Adopted T (pointsSet other) s.1 t.1 ∧ Adopted T (pointsSet other) s.2 t.2) l l' ∧
      adapt T l other = l'.filter (hasLength T) := by
  refine ⟨l.map (fun s => ((adopt T (pointsSet other) s.1).getD s.1, (adopt T (pointsSet other) s.2).getD s.2)), ?_, ?_⟩
  · rw [List.forall₂_map_right_iff, List.forall₂_same]
    intro s _
    exact ⟨adopt_adopted hT _ _, adopt_adopted hT _ _⟩
  · unfold adapt
    congr 1
    rcases hl with rfl | ⟨p, q, hpath⟩
    · rfl
    · cases l with
      | nil => rfl
      | cons s ss =>
        obtain ⟨_, h2⟩ := hpath
        have hf : adaptFirst T (pointsSet other) (s :: ss) = ((adopt T (pointsSet other) s.1).getD s.1, s.2) :: ss := by
          simp only [adaptFirst]
          cases adopt T (pointsSet other) s.1 <;> rfl
        rw [hf]
        simp only [List.length_cons, adaptSeconds]
        cases ha : adopt T (pointsSet other) s.2 with
        | none =>
          simp only [List.map_cons, ha, Option.getD_none]
          rw [adaptSeconds_map T (pointsSet other) ss.length s.2 s.2 q ss (Nat.le_refl _) h2 (by rw [ha]; rfl) ss h2 ?_]
          cases ss with
          | nil => rfl
          | cons u us => simp only [startAt]; rw [if_pos h2.1]
        | some z =>
          have hne : z ≠ (adopt T (pointsSet other) s.1).getD s.1 := by
            intro h
            exact hfirst s rfl z (by rw [h]; exact adopt_adopted hT _ _) ha
          simp only [List.map_cons, ha, Option.getD_some, Bool.true_and, decide_eq_true_eq, if_neg hne]
          cases hss : ss with
          | nil => rfl
          | cons u us =>
            rw [← hss]
            rw [adaptSeconds_map T (pointsSet other) ss.length s.2 z q (startAt z ss) ?_ (startAt_path h2 (by rw [hss]; simp))
              (by rw [ha]; rfl) ss h2 rfl]
            rw [hss]
            simp [startAt]

theorem filter_path {T : Tools P K} (hT : ∀ s : P × P, hasLength T s = true ↔ s.1 ≠ s.2) (l : List (P × P)) : ∀ p q, Path p l q →
    Path p (l.filter (hasLength T)) q := by
  induction l with
  | nil => intro p q h; exact h
  | cons s ss ih =>
    intro p q h
    rw [List.filter_cons]
    split
    · exact ⟨h.1, ih _ _ h.2⟩
    · next hs =>
      have : s.1 = s.2 := by by_contra hne; exact hs ((hT s).2 hne)
      rw [← h.1, this]
      exact ih _ _ h.2

theorem adaptSeconds_path (T : Tools P K) (S : List P) (n : Nat) : ∀ (p q : P) (l : List (P × P)), l.length ≤ n → Path p l q →
    ∃ r, Path p (adaptSeconds T S n false l) r := by
  induction n with
  | zero =>
    intro p q l hn h
    exact ⟨q, h⟩
  | succ n ih =>
    intro p q l hn h
    cases l with
    | nil => exact ⟨q, h⟩
    | cons s ss =>
      simp only [List.length_cons] at hn
      simp only [adaptSeconds]
      cases ha : adopt T S s.2 with
      | none =>
        obtain ⟨r, hr⟩ := ih s.2 q ss (by omega) h.2
        exact ⟨r, h.1, hr⟩
      | some z =>
        simp only [Bool.false_and, Bool.false_eq_true, if_false]
        cases hss : ss with
        | nil => exact ⟨z, h.1, by cases n <;> rfl⟩
        | cons u us =>
          rw [← hss]
          obtain ⟨r, hr⟩ := ih z q (startAt z ss) (by rw [hss]; simp [startAt]; rw [hss] at hn; simpa using hn)
            (startAt_path h.2 (by rw [hss]; simp))
          exact ⟨r, h.1, hr⟩

/-- **C93, connected.**  A line stays a line when its points are adapted. -/
theorem adapt_connected {T : Tools P K} (hT : ∀ s : P × P, hasLength T s = true ↔ s.1 ≠ s.2) {l : List (P × P)} (hl : Connected l)
    (other : List (P × P)) : Connected (adapt T l other) := by
  rcases hl with rfl | ⟨p, q, h⟩
  · exact .inl rfl
  · cases l with
    | nil => exact .inl rfl
    | cons s ss =>
      right
      unfold adapt
      have hf : ∃ x, adaptFirst T (pointsSet other) (s :: ss) = (x, s.2) :: ss := by
        simp only [adaptFirst]
        cases adopt T (pointsSet other) s.1 with
        | none => exact ⟨s.1, rfl⟩
        | some z => exact ⟨z, rfl⟩
      obtain ⟨x, hx⟩ := hf
      rw [hx]
      simp only [List.length_cons, adaptSeconds]
      cases ha : adopt T (pointsSet other) s.2 with
      | none =>
        obtain ⟨r, hr⟩ := adaptSeconds_path T (pointsSet other) ss.length s.2 q ss (Nat.le_refl _) h.2
        exact ⟨x, r, filter_path hT _ _ _ ⟨rfl, hr⟩⟩
      | some z =>
        simp only [Bool.true_and, decide_eq_true_eq]
        by_cases hz : z = x
        · rw [if_pos hz]
          obtain ⟨r, hr⟩ := adaptSeconds_path T (pointsSet other) ss.length s.2 q ss (Nat.le_refl _) h.2
          have hnl : ¬ hasLength T (x, z) = true := by rw [hT]; simp [hz]
          rw [List.filter_cons, if_neg hnl]
          exact ⟨s.2, r, filter_path hT _ _ _ hr⟩
        · rw [if_neg hz]
          cases hss : ss with
          | nil => exact ⟨x, z, filter_path hT _ _ _ ⟨rfl, rfl⟩⟩
          | cons u us =>
            rw [← hss]
            obtain ⟨r, hr⟩ := adaptSeconds_path T (pointsSet other) ss.length z q (startAt z ss) (by rw [hss]; simp [startAt])
              (startAt_path h.2 (by rw [hss]; simp))
            exact ⟨x, r, filter_path hT _ _ _ ⟨rfl, hr⟩⟩

theorem splitAt_path (T : Tools P K) (x : P) (l : List (P × P)) : ∀ p q, Path p l q → Path p (splitAt T l x) q := by
  induction l with
  | nil => intro p q h; exact h
  | cons s ss ih =>
    intro p q h
    unfold splitAt at ih ⊢
    rw [List.flatMap_cons]
    split
    · exact ⟨h.1, rfl, ih _ _ h.2⟩
    · exact ⟨h.1, ih _ _ h.2⟩

/-- **C93, splitting.**  A line that is split at the points of the other one goes from the same point to the same point, without gaps. -/
theorem split_path (T : Tools P K) (l other : List (P × P)) {p q : P} (h : Path p l q) : Path p (split T l other) q := by
  unfold split
  generalize pointsSet other = S
  induction S generalizing l with
  | nil => exact h
  | cons x S ih => exact ih (splitAt T l x) (splitAt_path T x l p q h)

/-- Splitting adds points of the other line only, and leaves all points of the line. -/
theorem split_points (T : Tools P K) (l other : List (P × P)) : (∀ p ∈ pts l, p ∈ pts (split T l other)) ∧
    ∀ p ∈ pts (split T l other), p ∈ pts l ∨ p ∈ pts other := by
  have step : ∀ (l : List (P × P)) (x : P), (∀ p ∈ pts l, p ∈ pts (splitAt T l x)) ∧ ∀ p ∈ pts (splitAt T l x), p ∈ pts l ∨ p = x := by
    intro l x
    constructor
    · intro p hp
      obtain ⟨s, hs, hp⟩ := mem_pts.1 hp
      by_cases hc : s.1 ≠ x ∧ s.2 ≠ x ∧ T.splits s x
      · rcases hp with hp | hp
        · exact mem_pts.2 ⟨(s.1, x), List.mem_flatMap.2 ⟨s, hs, by rw [if_pos hc]; simp⟩, .inl hp⟩
        · exact mem_pts.2 ⟨(x, s.2), List.mem_flatMap.2 ⟨s, hs, by rw [if_pos hc]; simp⟩, .inr hp⟩
      · exact mem_pts.2 ⟨s, List.mem_flatMap.2 ⟨s, hs, by rw [if_neg hc]; simp⟩, hp⟩
    · intro p hp
      obtain ⟨t, ht, hp⟩ := mem_pts.1 hp
      obtain ⟨s, hs, ht⟩ := List.mem_flatMap.1 ht
      by_cases hc : s.1 ≠ x ∧ s.2 ≠ x ∧ T.splits s x
      · rw [if_pos hc] at ht
        simp only [List.mem_cons, List.not_mem_nil, or_false] at ht
        rcases ht with rfl | rfl
        · rcases hp with hp | hp
          · exact .inl (mem_pts.2 ⟨s, hs, .inl hp⟩)
          · exact .inr hp
        · rcases hp with hp | hp
          · exact .inr hp
          · exact .inl (mem_pts.2 ⟨s, hs, .inr hp⟩)
      · rw [if_neg hc, List.mem_singleton] at ht
        subst ht
        exact .inl (mem_pts.2 ⟨t, hs, hp⟩)
  unfold split
  have hS : ∀ x ∈ pointsSet other, x ∈ pts other := fun x hx => mem_pointsSet.1 hx
  revert hS
  generalize pointsSet other = S
  intro hS
  induction S generalizing l with
  | nil => exact ⟨fun p h => h, fun p h => .inl h⟩
  | cons x S ih =>
    obtain ⟨h1, h2⟩ := step l x
    obtain ⟨h3, h4⟩ := ih (splitAt T l x) (fun y hy => hS y (List.mem_cons_of_mem _ hy))
    refine ⟨fun p hp => h3 p (h1 p hp), fun p hp => ?_⟩
    rcases h4 p hp with h5 | h5
    · rcases h2 p h5 with h6 | h6
      · exact .inl h6
      · exact .inr (by rw [h6]; exact hS x List.mem_cons_self)
    · exact .inr h5

/-- **C93, preparation.**  Both lines are still lines when they are aligned, if simplifying keeps them lines. -/
theorem prepare_connected {T : Tools P K} (hT : ∀ s : P × P, hasLength T s = true ↔ s.1 ≠ s.2)
    (hs : ∀ l, Connected l → Connected (T.simplify l)) {a b : List (P × P)} (ha : Connected a) (hb : Connected b) :
    Connected (prepare T a b).1 ∧ Connected (prepare T a b).2 := by
  have split_conn : ∀ l o, Connected l → Connected (split T l o) := by
    intro l o h
    rcases h with rfl | ⟨p, q, h⟩
    · left
      unfold split
      generalize pointsSet o = S
      induction S with
      | nil => rfl
      | cons x S ih => exact ih
    · exact .inr ⟨p, q, split_path T l o h⟩
  have both : ∀ l : List (P × P) × List (P × P), Connected l.1 → Connected l.2 → Connected (adaptBoth T l).1 ∧ Connected (adaptBoth T l).2 := by
    intro l h1 h2
    exact ⟨adapt_connected hT (adapt_connected hT h1 _) _, adapt_connected hT (adapt_connected hT h2 _) _⟩
  have both' : ∀ l : List (P × P) × List (P × P), Connected l.1 → Connected l.2 → Connected (splitBoth T l).1 ∧ Connected (splitBoth T l).2 := by
    intro l h1 h2
    exact ⟨split_conn _ _ (split_conn _ _ h1), split_conn _ _ (split_conn _ _ h2)⟩
  unfold prepare
  obtain ⟨h1, h2⟩ := both (T.simplify a, T.simplify b) (hs a ha) (hs b hb)
  obtain ⟨h3, h4⟩ := both' _ h1 h2
  exact both _ h3 h4

/-- **C93, lines apart.**  If no two different points of the two lines are within the tolerance, preparation refines each line: it
goes from the same point to the same point, keeps all its points, and gains points of the other line only. -/
theorem prepare_refines {T : Tools P K} (hT : ∀ s : P × P, hasLength T s = true ↔ s.1 ≠ s.2) (hf : Finds T) {a b : List (P × P)}
    (hF : Apart T (pts (T.simplify a) ++ pts (T.simplify b))) {p q p' q' : P} (ha : Path p (T.simplify a) q)
    (hb : Path p' (T.simplify b) q') (hna : ∀ s ∈ T.simplify a, s.1 ≠ s.2) (hnb : ∀ s ∈ T.simplify b, s.1 ≠ s.2) :
    (Path p (prepare T a b).1 q ∧ (∀ x ∈ pts (T.simplify a), x ∈ pts (prepare T a b).1) ∧
      ∀ x ∈ pts (prepare T a b).1, x ∈ pts (T.simplify a) ∨ x ∈ pts (T.simplify b)) ∧
    (Path p' (prepare T a b).2 q' ∧ (∀ x ∈ pts (T.simplify b), x ∈ pts (prepare T a b).2) ∧
      ∀ x ∈ pts (prepare T a b).2, x ∈ pts (T.simplify b) ∨ x ∈ pts (T.simplify a)) := by
  have hq : ∀ S p, ∀ q ∈ T.query S p, q ∈ S := fun S p => (hf S p).1
  have both : ∀ l m : List (P × P), (∀ x ∈ pts l, x ∈ pts (T.simplify a) ++ pts (T.simplify b)) →
      (∀ x ∈ pts m, x ∈ pts (T.simplify a) ++ pts (T.simplify b)) → (∀ s ∈ l, s.1 ≠ s.2) → (∀ s ∈ m, s.1 ≠ s.2) →
      adaptBoth T (l, m) = (l, m) := by
    intro l m hl hm h1 h2
    have f1 : l.filter (hasLength T) = l := List.filter_eq_self.2 (fun s hs => (hT s).2 (h1 s hs))
    have f2 : m.filter (hasLength T) = m := List.filter_eq_self.2 (fun s hs => (hT s).2 (h2 s hs))
    simp only [adaptBoth, adapt_same T hq _ hF l l hl hl, adapt_same T hq _ hF m m hm hm, f1, f2,
      adapt_same T hq _ hF l m hl hm, adapt_same T hq _ hF m l hm hl]
  have ne : ∀ l o : List (P × P), (∀ s ∈ l, s.1 ≠ s.2) → ∀ s ∈ split T l o, s.1 ≠ s.2 := by
    intro l o
    unfold split
    generalize pointsSet o = S
    induction S generalizing l with
    | nil => exact fun h => h
    | cons x S ih =>
      intro h
      refine ih (splitAt T l x) ?_
      intro s hs
      obtain ⟨t, ht, hst⟩ := List.mem_flatMap.1 hs
      split_ifs at hst with hc
      · simp only [List.mem_cons, List.not_mem_nil, or_false] at hst
        rcases hst with rfl | rfl
        · exact hc.1
        · exact fun h => hc.2.1 h.symm
      · rw [List.mem_singleton] at hst
        subst hst; exact h _ ht
  obtain ⟨A, hA⟩ : ∃ A, A = split T (T.simplify a) (T.simplify a) := ⟨_, rfl⟩
  obtain ⟨B, hB⟩ : ∃ B, B = split T (T.simplify b) (T.simplify b) := ⟨_, rfl⟩
  have pA := split_pts T (T.simplify a) (T.simplify a) (fun _ h => h)
  have pB := split_pts T (T.simplify b) (T.simplify b) (fun _ h => h)
  rw [← hA] at pA
  rw [← hB] at pB
  obtain ⟨A1, A2⟩ := split_points T A B
  obtain ⟨B1, B2⟩ := split_points T B (split T A B)
  have e : prepare T a b = (split T A B, split T B (split T A B)) := by
    rw [prepare, both (T.simplify a) (T.simplify b) (fun x hx => List.mem_append_left _ hx) (fun x hx => List.mem_append_right _ hx) hna hnb]
    rw [show splitBoth T (T.simplify a, T.simplify b) = (split T A B, split T B (split T A B)) by simp only [splitBoth, ← hA, ← hB]]
    refine both _ _ ?_ ?_ ?_ ?_
    · intro x hx
      rw [List.mem_append]
      rcases A2 x hx with h | h
      · exact .inl ((pA x).1 h)
      · exact .inr ((pB x).1 h)
    · intro x hx
      rw [List.mem_append]
      rcases B2 x hx with h | h
      · exact .inr ((pB x).1 h)
      · rcases A2 x h with h | h
        · exact .inl ((pA x).1 h)
        · exact .inr ((pB x).1 h)
    · exact ne _ _ (hA ▸ ne _ _ hna)
    · exact ne _ _ (hB ▸ ne _ _ hnb)
  rw [e]
  refine ⟨⟨split_path T A B (hA ▸ split_path T _ _ ha), fun x hx => A1 x ((pA x).2 hx), fun x hx => ?_⟩,
    ⟨split_path T B _ (hB ▸ split_path T _ _ hb), fun x hx => B1 x ((pB x).2 hx), fun x hx => ?_⟩⟩
  · rcases A2 x hx with h | h
    · exact .inl ((pA x).1 h)
    · exact .inr ((pB x).1 h)
  · rcases B2 x hx with h | h
    · exact .inl ((pB x).1 h)
    · rcases A2 x h with h | h
      · exact .inr ((pA x).1 h)
      · exact .inl ((pB x).1 h)

theorem foldl_add_eq (f : P × P → K) (l : List (P × P)) : ∀ c : K, l.foldl (fun c s => c + f s) c = c + (l.map f).sum := by
  induction l with
  | nil => intro c; simp
  | cons s ss ih => intro c; rw [List.foldl_cons, ih]; simp [add_assoc]

/-- **C93, parts.**  The parts reported are exactly the aligned segments that have a length, in order, and the sums reported are the sums
of their lengths. -/
theorem parts_lengths (T : Tools P K) {a b : List (P × P)} (ha : a ≠ []) (hb : b ≠ []) {gt cmp : Option K} {r : Result P K}
    (h : compare T a b gt cmp = .ok r) :
    ∃ p, alignment (prepare T a b).1 (prepare T a b).2 = .ok p ∧
      (∀ s, (s ∈ r.parts.corrects ↔ s ∈ p.corrects ∧ ∃ x, T.len s = some x ∧ x ≠ 0) ∧
        (s ∈ r.parts.adds ↔ s ∈ p.adds ∧ ∃ x, T.len s = some x ∧ x ≠ 0) ∧
        (s ∈ r.parts.misses ↔ s ∈ p.misses ∧ ∃ x, T.len s = some x ∧ x ≠ 0)) ∧
      r.correct = (r.parts.corrects.map (fun s => (T.len s).getD 0)).sum ∧
      r.errorAdded = (r.parts.adds.map (fun s => (T.len s).getD 0)).sum ∧
      r.errorMissed = (r.parts.misses.map (fun s => (T.len s).getD 0)).sum := by
  have hl : ∀ s : P × P, hasLength T s = true ↔ ∃ x, T.len s = some x ∧ x ≠ 0 := by
    intro s
    unfold hasLength
    cases T.len s <;> simp
  rcases compare_cases T a b gt cmp r h with ⟨h1, _⟩ | ⟨h1, _⟩ | ⟨_, h1, _⟩ | ⟨_, _, p, hp, rfl⟩
  · exact absurd h1 ha
  · exact absurd h1 ha
  · exact absurd h1 hb
  · refine ⟨p, hp, fun s => ?_, ?_, ?_, ?_⟩
    · simp only [score, List.mem_filter, hl]
      exact ⟨trivial, trivial, trivial⟩
    · simp only [score, total]; rw [foldl_add_eq, zero_add]
    · simp only [score, total]; rw [foldl_add_eq, zero_add]
    · simp only [score, total]; rw [foldl_add_eq, zero_add]

end Adapt

/-! ### Cases -/

/-- Points on an axis; points nearer than two are the same. -/
def near : Tools Nat Rat := { demo Rat with tolerance := 2 }

theorem near_finds : Finds near := fun _ _ => ⟨fun _ h => h, fun _ h _ => h⟩

theorem near_length (s : Nat × Nat) : hasLength near s = true ↔ s.1 ≠ s.2 := by
  unfold hasLength near demo
  by_cases h : s.1 = s.2
  · simp [h]
  · simp only [h, if_false]
    have : s.1 - s.2 + (s.2 - s.1) ≠ 0 := by omega
    simp only [ne_eq, h, not_false_eq_true, iff_true, decide_not, Bool.not_eq_eq_eq_not, Bool.not_true, decide_eq_false_iff_not]
    exact_mod_cast this

-- the hypotheses of `adapt_points_partial` and `adapt_connected`: 11 becomes 10, 21 becomes 20
example : Connected [(0, 11), (11, 21), (21, 30)] ∧ adapt near [(0, 11), (11, 21), (21, 30)] [(5, 10), (10, 20)] = [(0, 10), (10, 20), (20, 30)] ∧
    adopt near (pointsSet [(5, 10), (10, 20)]) 11 = some 10 := by
  refine ⟨.inr ⟨0, 30, rfl, rfl, rfl, rfl⟩, by decide +kernel, by decide +kernel⟩

example : split near [(0, 11), (11, 21)] [(5, 10), (10, 20)] = [(0, 5), (5, 10), (10, 11), (11, 20), (20, 21)] := by decide +kernel

example : prepare near [(0, 11), (11, 21)] [(5, 10), (10, 20)] = ([(0, 5), (5, 10), (10, 20)], [(5, 10), (10, 20)]) := by decide +kernel

-- `parts_lengths`: segments of 5 and 10 correct, one of 5 missed
example : (prepare near [(0, 11), (11, 21)] [(5, 10), (10, 20)]) = ([(0, 5), (5, 10), (10, 20)], [(5, 10), (10, 20)]) ∧
    alignment [(0, 5), (5, 10), (10, 20)] [(5, 10), (10, 20)] = .ok (⟨[(5, 10), (10, 20)], [], [(0, 5)]⟩ : Parts Nat) ∧
    (score near (some 21) (some 15) ⟨[(5, 10), (10, 20)], [], [(0, 5)]⟩).correct = 15 := by
  refine ⟨by decide +kernel, by decide +kernel, by decide +kernel⟩

-- `prepare_refines`: points 5 or more apart
example : Apart near (pts [(0, 10), (10, 20)] ++ pts [(5, 10), (10, 15)]) ∧
    prepare near [(0, 10), (10, 20)] [(5, 10), (10, 15)] = ([(0, 5), (5, 10), (10, 15), (15, 20)], [(5, 10), (10, 15)]) := by
  refine ⟨?_, by decide +kernel⟩
  unfold Apart
  decide +kernel

-- each line is adapted to itself, too: 1 becomes 0 and 0 becomes 1, so that the first segment turns
example : adaptBoth near ([(0, 1), (1, 20)], [(40, 50)]) = ([(1, 0), (0, 20)], [(40, 50)]) := by decide +kernel

/-- **C93 fails** at the start: if the first segment shrinks to the adopted point, the next one does not start there (compare.hpp 640-641),
although its first point has another point of the other line within the tolerance. -/
theorem adapt_start_fails : Finds near ∧ Connected [(4, 6), (6, 20)] ∧ adapt near [(4, 6), (6, 20)] [(5, 20)] = [(6, 20)] ∧
    Adopted near (pointsSet [(5, 20)]) 4 5 ∧ Adopted near (pointsSet [(5, 20)]) 6 5 := by
  have hS : ∀ q ∈ pointsSet [(5, 20)], q = 5 ∨ q = 20 := by
    intro q hq
    have := mem_pointsSet.1 hq
    simpa [pts] using this
  refine ⟨near_finds, .inr ⟨4, 20, rfl, rfl, rfl⟩, by decide +kernel, .inl ⟨by decide, mem_pointsSet.2 (by simp [pts]), ?_, ?_⟩,
    .inl ⟨by decide, mem_pointsSet.2 (by simp [pts]), ?_, ?_⟩⟩
  · norm_num [near, demo]
  · intro q hq _
    rcases hS q hq with rfl | rfl <;> norm_num [near, demo]
  · norm_num [near, demo]
  · intro q hq _
    rcases hS q hq with rfl | rfl <;> norm_num [near, demo]

end MM.Compare
