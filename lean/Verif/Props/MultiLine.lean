import Verif.Model.MultiLine
import Verif.Props.LazyLine

/-!
# C71: values of lines in several parts
-/

set_option autoImplicit false
set_option linter.unusedSectionVars false

namespace MM.MultiLine

open MM.Line

variable {P : Type} [DecidableEq P] {R A : Type}

/-! ### Cached and plain values -/

/-- What a plain line in the same parts answers. -/
def expected (G : Geo P R A) (ls : List (List P)) : Ask → Outcome (Answer R A)
  | .length => .ok (.len (toCell (length G ls)))
  | .azimuth => (azimuth G ls).map fun a => .angle (toCell a)
  | .directions => (directions G id ls).map fun a => .angle (toCell a)
  | .absolute => (directions G G.abs ls).map fun a => .angle (toCell a)

theorem cell_eq {α : Type} (o : Option α) : cell o = toCell o := by cases o <;> rfl

theorem toCell_get? {α : Type} (o : Option α) : (toCell o).get? = o := by cases o <;> rfl

theorem toCell_init {α : Type} (o : Option α) : (toCell o).isUninit = false := by cases o <;> rfl

theorem sumCells_total {α : Type} (z : α) (add : α → α → α) (xs : List (Option α)) :
    sumCells z add (xs.map toCell) = toCell (total z add xs) := by
  unfold sumCells total
  have h : (xs.map toCell).filterMap Cell.get? = xs.filterMap id := by
    rw [List.filterMap_map]
    congr 1
    funext o
    exact toCell_get? o
  rw [h]
  split_ifs <;> rfl

theorem noPoints_length (G : Geo P R A) {ls : List (List P)} (h : noPoints ls = true) : length G ls = none := by
  unfold length total
  have : (ls.map (plainLength G)).filterMap id = [] := by
    rw [List.filterMap_map, List.filterMap_eq_nil_iff]
    intro l hl
    unfold noPoints at h
    rw [List.all_eq_true] at h
    have := h l hl
    rw [List.isEmpty_iff] at this
    subst this
    rfl
  rw [this]
  rfl

theorem map_map {α β γ : Type} (x : Outcome α) (f : α → β) (g : β → γ) : (x.map f).map g = x.map (g ∘ f) := by
  cases x <;> rfl

theorem map_bind {α β γ : Type} (x : Outcome α) (f : α → Outcome β) (g : β → γ) :
    (x.bind f).map g = x.bind fun a => (f a).map g := by
  cases x <;> rfl

/-- The entries between the parts and the directions of the parts, in turn, are the contributions of a plain line. -/
theorem weave_joints (G : Geo P R A) (f : A → A) : ∀ ls : List (List P),
    (joints G ls).map (weave G f ls) = contributions G f ls
  | [] => rfl
  | [_] => rfl
  | a :: b :: ls => by
    have ih := weave_joints G f (b :: ls)
    show ((joint G a b).bind fun j => (joints G (b :: ls)).map fun r => cell j :: r).map _ =
      (joint G a b).bind fun j => (contributions G f (b :: ls)).map fun r => plainDirections G f a :: j.map f :: r
    rw [map_bind]
    congr 1
    funext j
    rw [← ih, map_map, map_map]
    congr 1
    funext r
    show plainDirections G f a :: (cell j).get?.map f :: _ = _
    rw [cell_eq, toCell_get?]
    rfl

/-- What the computation of the directions puts in the cells, from right entries. -/
theorem directions_cells (G : Geo P R A) (f : A → A) {ls : List (List P)} (hz : ∀ a, G.addA G.zeroA a = a)
    (h0 : noPoints ls = true → ls.length < 2) :
    (joints G ls).map (fun cs => if noPoints ls then Cell.invalid else cell (total G.zeroA G.addA (weave G f ls cs))) =
      (directions G f ls).map toCell := by
  unfold directions
  cases hn : noPoints ls with
  | true =>
    have := h0 hn
    match ls, this with
    | [], _ => rfl
    | [_], _ => rfl
  | false =>
    simp only [Bool.false_eq_true, if_false]
    match ls with
    | [] => cases hn
    | [l] =>
      show Outcome.ok (cell (total G.zeroA G.addA [plainDirections G f l])) = .ok (toCell (plainDirections G f l))
      rw [cell_eq]
      congr 2
      cases h : plainDirections G f l with
      | none => rfl
      | some d => simp [total, hz]
    | a :: b :: ls =>
      show _ = ((contributions G f (a :: b :: ls)).map _).map _
      rw [← weave_joints, map_map, map_map]
      rfl

/-- Every value is missing or right. -/
structure Right (G : Geo P R A) (m : Multi P R A) : Prop where
  length : m.data.length = .uninit ∨ m.data.length = toCell (length G m.lines)
  lengths : m.data.lengths = [] ∨ m.data.lengths = m.lines.map (toCell ∘ plainLength G)
  azimuth : m.data.azimuth = .uninit ∨ (azimuth G m.lines).map toCell = .ok m.data.azimuth
  dirs : m.data.directions = .uninit ∨ (directions G id m.lines).map toCell = .ok m.data.directions
  abs : m.data.absolute = .uninit ∨ (directions G G.abs m.lines).map toCell = .ok m.data.absolute
  joints : m.data.azimuths = [] ∨ joints G m.lines = .ok m.data.azimuths

theorem right_new (G : Geo P R A) (ls : List (List P)) : Right G (Multi.new ls) :=
  ⟨.inl rfl, .inl rfl, .inl rfl, .inl rfl, .inl rfl, .inl rfl⟩

theorem computeLength_right (G : Geo P R A) {m : Multi P R A} (h : Right G m) :
    Right G (computeLength G m) ∧ (computeLength G m).lines = m.lines ∧
      (computeLength G m).data.length = toCell (length G m.lines) := by
  unfold computeLength
  by_cases hu : m.data.length.isUninit = true
  · rw [if_pos hu]
    have hcells : computeLengths G m = m.lines.map (toCell ∘ plainLength G) ∨
        (computeLengths G m = [] ∧ noPoints m.lines = true) := by
      unfold computeLengths
      have hc : (cell ∘ plainLength G : List P → Cell R) = toCell ∘ plainLength G := by
        funext l; exact cell_eq _
      rcases h.lengths with e | e
      · rw [e]
        cases hn : noPoints m.lines
        · exact .inl (by simp [hc])
        · exact .inr (by simp)
      · rw [e]
        refine .inl ?_
        split_ifs with hh
        · rw [hc]
        · rfl
    have hs : sumCells G.zeroR G.addR (computeLengths G m) = toCell (length G m.lines) := by
      rcases hcells with e | ⟨e, hn⟩
      · rw [e, ← List.map_map, sumCells_total]; rfl
      · rw [e, noPoints_length G hn]; rfl
    refine ⟨⟨.inr hs, ?_, h.azimuth, h.dirs, h.abs, h.joints⟩, rfl, hs⟩
    rcases hcells with e | ⟨e, _⟩
    · exact .inr e
    · exact .inl e
  · rw [if_neg hu]
    refine ⟨h, rfl, ?_⟩
    rcases h.length with e | e
    · rw [e] at hu; exact absurd rfl hu
    · exact e

theorem computeAzimuth_right (G : Geo P R A) {m : Multi P R A} (h : Right G m) :
    (computeAzimuth G m).map (fun m' => m'.data.azimuth) = (azimuth G m.lines).map toCell ∧
      ∀ m', computeAzimuth G m = .ok m' → Right G m' ∧ m'.lines = m.lines := by
  unfold computeAzimuth
  by_cases hu : m.data.azimuth.isUninit = true
  · rw [if_pos hu]
    cases ha : azimuth G m.lines with
    | ok a =>
      refine ⟨by simp [cell_eq], ?_⟩
      intro m' hm
      rw [Outcome.map_ok, Outcome.ok.injEq] at hm
      subst hm
      refine ⟨⟨h.length, h.lengths, .inr ?_, h.dirs, h.abs, h.joints⟩, rfl⟩
      show (azimuth G m.lines).map toCell = .ok (cell a)
      rw [ha, cell_eq]; rfl
    | throws => exact ⟨rfl, fun m' hm => by cases hm⟩
    | ub => exact ⟨rfl, fun m' hm => by cases hm⟩
  · rw [if_neg hu]
    refine ⟨?_, ?_⟩
    · rcases h.azimuth with e | e
      · rw [e] at hu; exact absurd rfl hu
      · rw [e]; rfl
    · intro m' hm
      injection hm with hm
      subst hm
      exact ⟨h, rfl⟩

theorem computeDirections_right (G : Geo P R A) {m : Multi P R A} (h : Right G m) (hz : ∀ a, G.addA G.zeroA a = a)
    (h0 : noPoints m.lines = true → m.lines.length < 2) :
    (computeDirections G m).map (fun m' => m'.data.directions) = (directions G id m.lines).map toCell ∧
    (computeDirections G m).map (fun m' => m'.data.absolute) = (directions G G.abs m.lines).map toCell ∧
      ∀ m', computeDirections G m = .ok m' → Right G m' ∧ m'.lines = m.lines := by
  unfold computeDirections
  by_cases hu : (!m.data.directions.isUninit && !m.data.absolute.isUninit) = true
  · rw [if_pos hu]
    rw [Bool.and_eq_true] at hu
    refine ⟨?_, ?_, ?_⟩
    · rcases h.dirs with e | e
      · rw [e] at hu; cases hu.1
      · rw [e]; rfl
    · rcases h.abs with e | e
      · rw [e] at hu; cases hu.2
      · rw [e]; rfl
    · intro m' hm
      injection hm with hm
      subst hm
      exact ⟨h, rfl⟩
  · rw [if_neg hu]
    have hj : computeJoints G m = joints G m.lines := by
      unfold computeJoints
      rcases h.joints with e | e
      · rw [e]; rfl
      · rw [e]
        split_ifs <;> rfl
    rw [hj]
    have d1 := directions_cells G id hz h0
    have d2 := directions_cells G G.abs hz h0
    refine ⟨?_, ?_, ?_⟩
    · rw [map_map, ← d1]; rfl
    · rw [map_map, ← d2]; rfl
    · intro m' hm
      cases hc : joints G m.lines with
      | ok cs =>
        rw [hc] at hm d1 d2
        rw [Outcome.map_ok, Outcome.ok.injEq] at hm
        subst hm
        exact ⟨⟨h.length, h.lengths, h.azimuth, .inr d1.symm, .inr d2.symm, .inr hc⟩, rfl⟩
      | throws => rw [hc] at hm; cases hm
      | ub => rw [hc] at hm; cases hm

/-- Lines in several parts that were built and asked any questions in any order. -/
inductive Asked (G : Geo P R A) : Multi P R A → Prop where
  | new (ls : List (List P)) : Asked G (Multi.new ls)
  | ask {m m' : Multi P R A} {q : Ask} {a : Answer R A} : Asked G m → m.ask G q = .ok (a, m') → Asked G m'

theorem ask_right (G : Geo P R A) {m : Multi P R A} (h : Right G m) (hz : ∀ a, G.addA G.zeroA a = a)
    (h0 : noPoints m.lines = true → m.lines.length < 2) (q : Ask) :
    (m.ask G q).map Prod.fst = expected G m.lines q ∧
      ∀ a m', m.ask G q = .ok (a, m') → Right G m' ∧ m'.lines = m.lines := by
  obtain ⟨l1, l2, l3⟩ := computeLength_right G h
  obtain ⟨a1, a2⟩ := computeAzimuth_right G h
  obtain ⟨d1, d2, d3⟩ := computeDirections_right G h hz h0
  cases q with
  | length =>
    refine ⟨by simp only [Multi.ask, expected, Outcome.map_ok, l3], ?_⟩
    intro a m' hm
    simp only [Multi.ask, Outcome.ok.injEq, Prod.mk.injEq] at hm
    rw [← hm.2]
    exact ⟨l1, l2⟩
  | azimuth =>
    unfold Multi.ask expected
    refine ⟨?_, ?_⟩
    · have := congrArg (Outcome.map (Answer.angle (R := R))) a1
      rw [map_map, map_map] at this
      rw [map_map]
      exact this
    · intro a m' hm
      simp only at hm
      cases hc : computeAzimuth G m with
      | ok x => rw [hc] at hm; simp at hm; rw [← hm.2]; exact a2 x hc
      | throws => rw [hc] at hm; cases hm
      | ub => rw [hc] at hm; cases hm
  | directions =>
    unfold Multi.ask expected
    refine ⟨?_, ?_⟩
    · have := congrArg (Outcome.map (Answer.angle (R := R))) d1
      rw [map_map, map_map] at this
      rw [map_map]
      exact this
    · intro a m' hm
      simp only at hm
      cases hc : computeDirections G m with
      | ok x => rw [hc] at hm; simp at hm; rw [← hm.2]; exact d3 x hc
      | throws => rw [hc] at hm; cases hm
      | ub => rw [hc] at hm; cases hm
  | absolute =>
    unfold Multi.ask expected
    refine ⟨?_, ?_⟩
    · have := congrArg (Outcome.map (Answer.angle (R := R))) d2
      rw [map_map, map_map] at this
      rw [map_map]
      exact this
    · intro a m' hm
      simp only at hm
      cases hc : computeDirections G m with
      | ok x => rw [hc] at hm; simp at hm; rw [← hm.2]; exact d3 x hc
      | throws => rw [hc] at hm; cases hm
      | ub => rw [hc] at hm; cases hm

theorem noPoints_iff (ls : List (List P)) : noPoints ls = true ↔ ∀ l ∈ ls, l = [] := by
  unfold noPoints
  rw [List.all_eq_true]
  exact forall₂_congr fun l _ => List.isEmpty_iff

theorem asked_right (G : Geo P R A) {m : Multi P R A} (hm : Asked G m) (hz : ∀ a, G.addA G.zeroA a = a)
    (h0 : (∀ l ∈ m.lines, l = []) → m.lines.length < 2) : Right G m := by
  induction hm with
  | new ls => exact right_new G ls
  | @ask m m' q a _ hq ih =>
    -- the parts do not change
    have hl : m'.lines = m.lines := by
      cases q with
      | length =>
        simp only [Multi.ask, Outcome.ok.injEq, Prod.mk.injEq] at hq
        rw [← hq.2]; unfold computeLength; split_ifs <;> rfl
      | azimuth =>
        simp only [Multi.ask, computeAzimuth] at hq
        split_ifs at hq with hu
        · cases ha : azimuth G m.lines with
          | ok x => rw [ha] at hq; simp at hq; rw [← hq.2]
          | throws => rw [ha] at hq; cases hq
          | ub => rw [ha] at hq; cases hq
        · simp at hq; rw [hq.2]
      | directions =>
        simp only [Multi.ask, computeDirections] at hq
        by_cases hu : (!m.data.directions.isUninit && !m.data.absolute.isUninit) = true
        · rw [if_pos hu] at hq; simp at hq; rw [hq.2]
        · rw [if_neg hu] at hq
          cases hc : computeJoints G m with
          | ok x => rw [hc] at hq; simp only [Outcome.map_ok, Outcome.ok.injEq, Prod.mk.injEq] at hq; rw [← hq.2]
          | throws => rw [hc] at hq; cases hq
          | ub => rw [hc] at hq; cases hq
      | absolute =>
        simp only [Multi.ask, computeDirections] at hq
        by_cases hu : (!m.data.directions.isUninit && !m.data.absolute.isUninit) = true
        · rw [if_pos hu] at hq; simp at hq; rw [hq.2]
        · rw [if_neg hu] at hq
          cases hc : computeJoints G m with
          | ok x => rw [hc] at hq; simp only [Outcome.map_ok, Outcome.ok.injEq, Prod.mk.injEq] at hq; rw [← hq.2]
          | throws => rw [hc] at hq; cases hq
          | ub => rw [hc] at hq; cases hq
    rw [hl] at h0
    exact ((ask_right G (ih h0) hz (fun h => h0 ((noPoints_iff _).1 h)) q).2 a m' hq).1

/-- **C71, cached values.**  However often and in which order a lazily evaluated line in several parts was asked, it answers as
a plain line in the same parts: with the same value, without one, or by running into the same undefined behaviour.  Excluded
are several parts that are all without points (`several_empty_fails`); zero must be neutral. -/
theorem lazy_multi_agrees_partial (G : Geo P R A) (hz : ∀ a, G.addA G.zeroA a = a) {m : Multi P R A} (hm : Asked G m)
    (h0 : (∀ l ∈ m.lines, l = []) → m.lines.length < 2) (q : Ask) : (m.ask G q).map Prod.fst = expected G m.lines q :=
  (ask_right G (asked_right G hm hz h0) hz (fun h => h0 ((noPoints_iff _).1 h)) q).1

/-! ### Questions that return -/

theorem joint_returns (G : Geo P R A) {a b : List P} (ha : a ≠ []) (hb : b ≠ []) : ∃ j, joint G a b = .ok j := by
  unfold joint
  obtain ⟨p, hp⟩ : ∃ p, a.getLast? = some p := ⟨_, List.getLast?_eq_getLast_of_ne_nil ha⟩
  obtain ⟨q, hq⟩ : ∃ q, b.head? = some q := ⟨_, List.head?_eq_some_head hb⟩
  simp only [hp, hq]
  by_cases h : p = q
  · rw [if_pos h]
    cases (segs a).getLast?.bind (plainAzimuthAt G) <;> cases (segs b).head?.bind (plainAzimuthAt G) <;> exact ⟨_, rfl⟩
  · rw [if_neg h]; exact ⟨_, rfl⟩

theorem contributions_returns (G : Geo P R A) (f : A → A) : ∀ {ls : List (List P)}, (∀ l ∈ ls, l ≠ []) →
    ∃ r, contributions G f ls = .ok r
  | [], _ => ⟨_, rfl⟩
  | [_], _ => ⟨_, rfl⟩
  | a :: b :: ls, h => by
    obtain ⟨j, hj⟩ := joint_returns G (h a (by simp)) (h b (by simp))
    obtain ⟨r, hr⟩ := contributions_returns G f (ls := b :: ls) (fun l hl => h l (List.mem_cons_of_mem _ hl))
    exact ⟨_, by rw [contributions, hj, Outcome.bind_ok, hr, Outcome.map_ok]⟩

theorem ends_returns (G : Geo P R A) {ls : List (List P)} (h : ∀ l ∈ ls, l ≠ []) (hn : ls ≠ []) : ∃ a, ends G ls = .ok a := by
  unfold ends
  have e1 : ls.head? = some (ls.head hn) := List.head?_eq_some_head hn
  have e2 : ls.getLast? = some (ls.getLast hn) := List.getLast?_eq_getLast_of_ne_nil hn
  have e3 := List.head?_eq_some_head (h _ (List.head_mem hn))
  have e4 := List.getLast?_eq_getLast_of_ne_nil (h _ (List.getLast_mem hn))
  simp only [e1, e2, Option.bind_some, e3, e4]
  exact ⟨_, rfl⟩

/-- If every part has points, all questions return. -/
theorem expected_returns (G : Geo P R A) {ls : List (List P)} (h : ∀ l ∈ ls, l ≠ []) (q : Ask) :
    ∃ a, expected G ls q = .ok a := by
  have hd : ∀ f, ∃ a, directions G f ls = .ok a := by
    intro f
    unfold directions
    by_cases hn : noPoints ls = true
    · rw [if_pos hn]; exact ⟨_, rfl⟩
    · rw [if_neg hn]
      match ls, h with
      | [], _ => exact ⟨_, rfl⟩
      | [_], _ => exact ⟨_, rfl⟩
      | a :: b :: ls, h =>
        obtain ⟨r, hr⟩ := contributions_returns G f h
        exact ⟨_, by simp only [hr]; rfl⟩
  cases q with
  | length => exact ⟨_, rfl⟩
  | azimuth =>
    unfold expected azimuth
    by_cases hn : noPoints ls = true
    · rw [if_pos hn]; exact ⟨_, rfl⟩
    · rw [if_neg hn]
      match ls, h, hn with
      | [], _, hn => exact absurd rfl hn
      | [_], _, _ => exact ⟨_, rfl⟩
      | a :: b :: ls, h, _ =>
        obtain ⟨r, hr⟩ := ends_returns G h (by simp)
        exact ⟨_, by simp only [hr]; rfl⟩
  | directions =>
    obtain ⟨a, ha⟩ := hd id
    exact ⟨_, by unfold expected; simp only [ha]; rfl⟩
  | absolute =>
    obtain ⟨a, ha⟩ := hd G.abs
    exact ⟨_, by unfold expected; simp only [ha]; rfl⟩

theorem ne_lt_two {ls : List (List P)} (h : ∀ l ∈ ls, l ≠ []) : (∀ l ∈ ls, l = []) → ls.length < 2 := by
  intro h2
  cases ls with
  | nil => simp
  | cons a ls => exact absurd (h2 a (by simp)) (h a (by simp))

/-- **C71, evaluated lines.**  If every part has points, an evaluated line in several parts can be built and shows the values of
a plain one in the same parts. -/
theorem eager_multi_agrees_partial (G : Geo P R A) (hz : ∀ a, G.addA G.zeroA a = a) {ls : List (List P)}
    (h : ∀ l ∈ ls, l ≠ []) :
    ∃ m, Multi.eager G ls = .ok m ∧ m.lines = ls ∧ ∀ q, expected G ls q = .ok (m.read q) := by
  have h0 : noPoints ls = true → ls.length < 2 := fun hh => ne_lt_two h ((noPoints_iff _).1 hh)
  obtain ⟨l1, l2, l3⟩ := computeLength_right G (right_new G ls)
  obtain ⟨a1, a2⟩ := computeAzimuth_right G l1
  obtain ⟨ea, hea⟩ := expected_returns G h .azimuth
  obtain ⟨ed, hed⟩ := expected_returns G h .directions
  obtain ⟨ev, hev⟩ := expected_returns G h .absolute
  have l2' : (computeLength G (Multi.new ls)).lines = ls := l2
  rw [l2'] at a1
  unfold expected at hea hed hev
  simp only at hea hed hev
  cases hc : computeAzimuth G (computeLength G (Multi.new ls)) with
  | throws => rw [hc] at a1; cases hx : azimuth G ls <;> rw [hx] at a1 hea <;> simp at a1 hea
  | ub => rw [hc] at a1; cases hx : azimuth G ls <;> rw [hx] at a1 hea <;> simp at a1 hea
  | ok m1 =>
    obtain ⟨r1, r2⟩ := a2 m1 hc
    rw [l2'] at r2
    obtain ⟨d1, d2, d3⟩ := computeDirections_right G r1 hz (by rw [r2]; exact h0)
    rw [r2] at d1 d2 d3
    cases hd : computeDirections G m1 with
    | throws => rw [hd] at d1; cases hx : directions G id ls <;> rw [hx] at d1 hed <;> simp at d1 hed
    | ub => rw [hd] at d1; cases hx : directions G id ls <;> rw [hx] at d1 hed <;> simp at d1 hed
    | ok m2 =>
      obtain ⟨k1, k2⟩ := d3 m2 hd
      have kept : m2.data.length = (computeLength G (Multi.new ls)).data.length ∧ m2.data.azimuth = m1.data.azimuth := by
        have s1 : m1.data.length = (computeLength G (Multi.new ls)).data.length := by
          unfold computeAzimuth at hc
          split_ifs at hc with hu
          · cases hx : azimuth G (computeLength G (Multi.new ls)).lines with
            | ok x => rw [hx] at hc; simp only [Outcome.map_ok, Outcome.ok.injEq] at hc; rw [← hc]
            | throws => rw [hx] at hc; cases hc
            | ub => rw [hx] at hc; cases hc
          · injection hc with hc; rw [hc]
        unfold computeDirections at hd
        by_cases hu : (!m1.data.directions.isUninit && !m1.data.absolute.isUninit) = true
        · rw [if_pos hu] at hd; injection hd with hd; rw [← hd]; exact ⟨s1, rfl⟩
        · rw [if_neg hu] at hd
          cases hx : computeJoints G m1 with
          | ok x => rw [hx] at hd; simp only [Outcome.map_ok, Outcome.ok.injEq] at hd; rw [← hd]; exact ⟨s1, rfl⟩
          | throws => rw [hx] at hd; cases hd
          | ub => rw [hx] at hd; cases hd
      refine ⟨m2, ?_, k2, ?_⟩
      · unfold Multi.eager
        rw [hc, Outcome.bind_ok, hd]
      · intro q
        rw [hc] at a1
        rw [hd] at d1 d2
        have lift : ∀ {x : Outcome (Option A)} {c : Cell A}, Outcome.ok c = x.map toCell →
            (x.map fun a => Answer.angle (R := R) (toCell a)) = .ok (.angle c) := by
          intro x c hx
          cases x with
          | ok a => simp at hx; simp [hx]
          | throws => cases hx
          | ub => cases hx
        cases q with
        | length =>
          show Outcome.ok (Answer.len (toCell (length G ls))) = .ok (.len m2.data.length)
          rw [kept.1, l3]; rfl
        | azimuth =>
          show _ = Outcome.ok (Answer.angle m2.data.azimuth)
          rw [kept.2]
          exact lift a1
        | directions => exact lift d1
        | absolute => exact lift d2

/-- Two parts that meet and one that does not. -/
example : ∃ m : Multi Nat Nat Nat, Multi.eager demoGeo [[0, 1], [1, 9], [5, 6]] = .ok m ∧ m.read .length = .len (.val 10) ∧
    m.read .azimuth = .angle (.val 6) ∧ m.read .absolute = .angle (.val 111) := ⟨_, rfl, rfl, rfl, rfl⟩

/-! ### Merging the parts -/

theorem merge_snoc : ∀ (ns : List (List P)) (l n : List P), merge l (ns ++ [n]) = (merge l ns).bind fun l' => mergeSingle l' n
  | [], l, n => by
    show (mergeSingle l n).bind (fun l' => .ok l') = mergeSingle l n
    cases mergeSingle l n <;> rfl
  | m :: ns, l, n => by
    show (mergeSingle l m).bind _ = ((mergeSingle l m).bind _).bind _
    cases mergeSingle l m with
    | ok l' => exact merge_snoc ns l' n
    | throws => rfl
    | ub => rfl

/-- Two parts that meet, as one. -/
theorem meet_one {a b : List P} (ha : 2 ≤ a.length) (hb : 2 ≤ b.length) (h : gap a b = false) :
    ∃ r, mergeSingle a b = .ok r := by
  obtain ⟨p, hp⟩ : ∃ p, a.getLast? = some p := ⟨_, List.getLast?_eq_getLast_of_ne_nil (by rintro rfl; simp at ha)⟩
  cases b with
  | nil => simp at hb
  | cons q rest =>
    unfold gap at h
    simp only [hp, List.head?_cons, ne_eq, decide_not, Bool.not_eq_false', decide_eq_true_eq] at h
    exact ⟨a ++ rest, by simp only [mergeSingle, hp, h, if_true]⟩

theorem one_ends {a b r : List P} (ha : 2 ≤ a.length) (hb : 2 ≤ b.length) (h : mergeSingle a b = .ok r) :
    2 ≤ r.length ∧ r.getLast? = b.getLast? ∧ r.head? = a.head? ∧ a.getLast? = b.head? := by
  obtain ⟨p, hp⟩ : ∃ p, a.getLast? = some p := ⟨_, List.getLast?_eq_getLast_of_ne_nil (by rintro rfl; simp at ha)⟩
  match b, hb with
  | q :: q2 :: rest, _ =>
    simp only [mergeSingle, hp] at h
    by_cases e : p = q
    · rw [if_pos e] at h
      injection h with h
      subst h
      refine ⟨by simp only [List.length_append]; omega, ?_, ?_, by rw [hp, e]; rfl⟩
      · rw [List.getLast?_append, List.getLast?_cons_cons, List.getLast?_cons]; simp
      · cases a with
        | nil => simp at ha
        | cons x a => rfl
    · rw [if_neg e] at h; cases h

/-- Whatever is the same for two parts that meet and for the two as one part is the same for the parts and the merged parts. -/
theorem merge_invariant {X : Type} (F : List (List P) → X)
    (hF : ∀ pre a b post r, 2 ≤ a.length → 2 ≤ b.length → mergeSingle a b = .ok r →
      F (pre ++ r :: post) = F (pre ++ a :: b :: post)) :
    ∀ (ns : List (List P)) (acc group : List (List P)) (prev g : List P) (gs : List (List P)),
      (∀ l ∈ ns, 2 ≤ l.length) → 2 ≤ g.length → g.getLast? = prev.getLast? → merge [] group = .ok g →
      mergeGroups acc (splitGroups group prev ns) = .ok gs → F gs = F (acc ++ g :: ns)
  | [], acc, group, prev, g, gs, _, _, _, hg, h => by
    simp only [splitGroups, mergeGroups, hg, Outcome.bind_ok, Outcome.ok.injEq] at h
    rw [← h]
  | n :: ns, acc, group, prev, g, gs, hn, hl, he, hg, h => by
    have hn2 : 2 ≤ n.length := hn n (by simp)
    unfold splitGroups at h
    by_cases hgap : gap prev n = true
    · rw [if_pos hgap] at h
      simp only [mergeGroups, hg, Outcome.bind_ok] at h
      have := merge_invariant F hF ns (acc ++ [g]) [n] n n gs (fun l hh => hn l (List.mem_cons_of_mem _ hh)) hn2 rfl
        (by
          have : n ≠ [] := by rintro rfl; simp at hn2
          obtain ⟨q, rest, rfl⟩ := List.exists_cons_of_ne_nil this
          rfl) h
      rw [this]
      simp
    · rw [if_neg hgap] at h
      have hgap' : gap g n = false := by
        unfold gap at hgap ⊢
        rw [he]
        simpa using hgap
      obtain ⟨r, hr⟩ := meet_one hl hn2 hgap'
      obtain ⟨r1, r2, _, _⟩ := one_ends hl hn2 hr
      have := merge_invariant F hF ns acc (group ++ [n]) n r gs (fun l hh => hn l (List.mem_cons_of_mem _ hh)) r1 r2
        (by rw [merge_snoc, hg, Outcome.bind_ok, hr]) h
      rw [this]
      exact hF acc g n ns r hl hn2 hr

theorem multiMerge_invariant {X : Type} (F : List (List P) → X)
    (hF : ∀ pre a b post r, 2 ≤ a.length → 2 ≤ b.length → mergeSingle a b = .ok r →
      F (pre ++ r :: post) = F (pre ++ a :: b :: post)) {acc ls gs : List (List P)} (hl : ls ≠ [])
    (h2 : ∀ l ∈ ls, 2 ≤ l.length) (h : multiMerge acc ls = .ok gs) : F gs = F (acc ++ ls) := by
  cases ls with
  | nil => exact absurd rfl hl
  | cons n ns =>
    have hn2 : 2 ≤ n.length := h2 n (by simp)
    refine merge_invariant F hF ns acc [n] n n gs (fun l hh => h2 l (List.mem_cons_of_mem _ hh)) hn2 rfl ?_ h
    have : n ≠ [] := by rintro rfl; simp at hn2
    obtain ⟨q, rest, rfl⟩ := List.exists_cons_of_ne_nil this
    rfl

/-! ### Sums -/

/-- Exact addition. -/
structure Exact {α : Type} (z : α) (add : α → α → α) : Prop where
  assoc : ∀ a b c, add (add a b) c = add a (add b c)
  left : ∀ a, add z a = a
  right : ∀ a, add a z = a

theorem foldl_exact {α : Type} {z : α} {add : α → α → α} (h : Exact z add) (xs : List α) : ∀ x,
    xs.foldl add x = add x (xs.foldl add z) := by
  induction xs with
  | nil => intro x; exact (h.right x).symm
  | cons a xs ih =>
    intro x
    rw [List.foldl_cons, List.foldl_cons, ih, ih (add z a), h.left, h.assoc]

theorem total_append {α : Type} {z : α} {add : α → α → α} (h : Exact z add) (xs ys : List (Option α)) :
    total z add (total z add xs :: ys) = total z add (xs ++ ys) := by
  unfold total
  rw [List.filterMap_append]
  cases hx : xs.filterMap id with
  | nil => rfl
  | cons a as =>
    simp only [List.isEmpty_cons, Bool.false_eq_true, if_false, List.filterMap_cons, id_eq, List.cons_append, List.foldl_cons,
      List.foldl_append, h.left]

theorem total_congr_tail {α : Type} {z : α} {add : α → α → α} (h : Exact z add) {xs ys zs : List (Option α)}
    (e : total z add ys = total z add zs) : total z add (xs ++ ys) = total z add (xs ++ zs) := by
  have key : ∀ ys : List (Option α), total z add (xs ++ ys) = total z add (xs ++ [total z add ys]) := by
    intro ys
    unfold total
    rw [List.filterMap_append, List.filterMap_append]
    cases hy : ys.filterMap id with
    | nil => simp
    | cons b bs =>
      have ne : ∀ (as : List α) (b : α) (bs : List α), (as ++ b :: bs).isEmpty = false := by intro as b bs; cases as <;> rfl
      simp only [ne, List.isEmpty_cons, Bool.false_eq_true, if_false, List.filterMap_cons,
        id_eq, List.filterMap_nil, List.foldl_append, List.foldl_cons, List.foldl_nil]
      rw [foldl_exact h bs (add (List.foldl add z _) b), foldl_exact h bs (add z b), h.left, h.assoc]
  rw [key ys, key zs, e]

/-! ### Lengths -/

theorem plainLength_total (G : Geo P R A) (l : List P) :
    plainLength G l = total G.zeroR G.addR ((segs l).map (plainLengthAt G)) := by
  have h1 := lengthCell_eq G l
  unfold lengthCell at h1
  have h2 : (segs l).map (segLen G) = ((segs l).map (plainLengthAt G)).map toCell := by
    rw [List.map_map]
    exact List.map_congr_left fun s _ => segLen_cell G s
  rw [h2, sumCells_total] at h1
  have := congrArg Cell.get? h1
  rw [toCell_get?, toCell_get?] at this
  exact this.symm

theorem length_flat (G : Geo P R A) (hs : Exact G.zeroR G.addR) : ∀ ls : List (List P),
    length G ls = total G.zeroR G.addR ((ls.flatMap segs).map (plainLengthAt G))
  | [] => rfl
  | l :: ls => by
    have ih := length_flat G hs ls
    unfold length at ih ⊢
    rw [List.map_cons, plainLength_total, total_append hs, List.flatMap_cons, List.map_append]
    exact total_congr_tail hs ih

/-! ### Directions -/

/-- Changes of direction inside a part. -/
def turnsOf (G : Geo P R A) (l : List P) : List (Option A) := ((segs l).zip (segs l).tail).map (plainDirectionAt G)

/-- Change of direction between two parts. -/
def turn (G : Geo P R A) (a b : List P) : Option A :=
  if a.getLast? = b.head? then (segs a).getLast?.bind fun s => (segs b).head?.bind fun t => plainDirectionAt G (s, t) else none

/-- All changes of direction. -/
def turns (G : Geo P R A) : List (List P) → List (Option A)
  | [] => []
  | a :: ls => turnsOf G a ++ (ls.head?.toList.map (turn G a) ++ turns G ls)

theorem plainDirections_total (G : Geo P R A) (f : A → A) (l : List P) :
    plainDirections G f l = total G.zeroA G.addA ((turnsOf G l).map (Option.map f)) := by
  unfold plainDirections total turnsOf
  have h : (((((segs l).zip (segs l).tail).map (plainDirectionAt G)).map (Option.map f)).filterMap id) =
      (((segs l).zip (segs l).tail).filterMap (plainDirectionAt G)).map f := by
    rw [List.map_map, List.filterMap_map, List.map_filterMap]
    rfl
  rw [h]
  simp only [List.isEmpty_map, List.foldl_map]

theorem joint_turn (G : Geo P R A) {a b : List P} (ha : a ≠ []) (hb : b ≠ []) : joint G a b = .ok (turn G a b) := by
  obtain ⟨p, hp⟩ : ∃ p, a.getLast? = some p := ⟨_, List.getLast?_eq_getLast_of_ne_nil ha⟩
  obtain ⟨q, hq⟩ : ∃ q, b.head? = some q := ⟨_, List.head?_eq_some_head hb⟩
  unfold joint turn
  simp only [hp, hq]
  by_cases e : p = q
  · rw [if_pos e, if_pos (by rw [e])]
    cases h1 : (segs a).getLast? with
    | none => rfl
    | some s =>
      cases h2 : (segs b).head? with
      | none => simp only [Option.bind_some, Option.bind_none]; cases plainAzimuthAt G s <;> rfl
      | some t =>
        simp only [Option.bind_some]
        unfold plainAzimuthAt plainDirectionAt
        by_cases e1 : s.1 = s.2
        · simp [e1]
        · by_cases e2 : t.1 = t.2 <;> simp [e1, e2]
  · rw [if_neg e, if_neg (by simpa using e)]

theorem contributions_total (G : Geo P R A) (f : A → A) (hs : Exact G.zeroA G.addA) : ∀ {ls : List (List P)},
    (∀ l ∈ ls, l ≠ []) →
    (contributions G f ls).map (total G.zeroA G.addA) = .ok (total G.zeroA G.addA ((turns G ls).map (Option.map f)))
  | [], _ => rfl
  | [a], _ => by
    simp only [contributions, Outcome.map_ok, turns, List.head?_nil, Option.toList_none, List.map_nil, List.append_nil,
      plainDirections_total]
    rw [total_append hs, List.append_nil]
  | a :: b :: ls, h => by
    have ih := contributions_total G f hs (ls := b :: ls) fun l hl => h l (List.mem_cons_of_mem _ hl)
    rw [contributions, joint_turn G (h a (by simp)) (h b (by simp)), Outcome.bind_ok, map_map]
    cases hc : contributions G f (b :: ls) with
    | throws => rw [hc] at ih; cases ih
    | ub => rw [hc] at ih; cases ih
    | ok r =>
      rw [hc] at ih
      simp only [Outcome.map_ok, Outcome.ok.injEq] at ih ⊢
      show total _ _ (plainDirections G f a :: (turn G a b).map f :: r) = _
      rw [plainDirections_total, total_append hs]
      conv_rhs => rw [turns]
      rw [List.map_append, List.head?_cons, Option.toList_some, List.map_append]
      show _ = total _ _ (_ ++ ([(turn G a b).map f] ++ (turns G (b :: ls)).map (Option.map f)))
      rw [← List.singleton_append, ← List.append_assoc, ← List.append_assoc]
      exact total_congr_tail hs ih

/-- The directions are the sum of all changes of direction. -/
theorem directions_total (G : Geo P R A) (f : A → A) (hs : Exact G.zeroA G.addA) {ls : List (List P)} (h : ∀ l ∈ ls, l ≠ []) :
    directions G f ls = .ok (total G.zeroA G.addA ((turns G ls).map (Option.map f))) := by
  unfold directions
  match ls, h with
  | [], _ => rfl
  | [l], h =>
    have hn : noPoints [l] = false := by simpa [noPoints] using h l (by simp)
    rw [hn]
    simp [turns, plainDirections_total]
  | a :: b :: ls, h =>
    have hn : noPoints (a :: b :: ls) = false := by
      have := h a (by simp)
      simp [noPoints, this]
    rw [hn]
    exact contributions_total G f hs h

theorem segs_append_gen {Q : Type} (s t : Q) (rest : List Q) : ∀ pre : List Q,
    (pre ++ [s] ++ t :: rest).zip (pre ++ [s] ++ t :: rest).tail =
      (pre ++ [s]).zip (pre ++ [s]).tail ++ (s, t) :: (t :: rest).zip rest
  | [] => by simp
  | [a] => by simp
  | a :: b :: pre => by
    have ih := segs_append_gen s t rest (b :: pre)
    simp only [List.cons_append, List.tail_cons, List.zip_cons_cons] at ih ⊢
    rw [ih]

theorem segs_ne {l : List P} (h : 2 ≤ l.length) : segs l ≠ [] := by
  intro e
  have := segs_length l
  rw [e] at this
  simp at this
  omega

theorem turnsOf_one (G : Geo P R A) {a b r : List P} (ha : 2 ≤ a.length) (hb : 2 ≤ b.length) (h : mergeSingle a b = .ok r) :
    turnsOf G r = turnsOf G a ++ turn G a b :: turnsOf G b := by
  have hs := segs_merge h
  obtain ⟨_, _, _, hm⟩ := one_ends ha hb h
  unfold turnsOf turn
  rw [hs, if_pos hm]
  obtain ⟨pre, s, e1⟩ := (List.eq_nil_or_concat (segs a)).resolve_left (segs_ne ha)
  obtain ⟨t, rest, e2⟩ := List.exists_cons_of_ne_nil (segs_ne hb)
  rw [List.concat_eq_append] at e1
  rw [e1, e2, segs_append_gen, List.map_append, List.map_cons]
  simp

theorem turns_one (G : Geo P R A) (pre : List (List P)) (a b : List P) (post : List (List P)) (r : List P)
    (ha : 2 ≤ a.length) (hb : 2 ≤ b.length) (h : mergeSingle a b = .ok r) :
    turns G (pre ++ r :: post) = turns G (pre ++ a :: b :: post) := by
  have hs := segs_merge h
  obtain ⟨_, h1, h2, hm⟩ := one_ends ha hb h
  have t1 : ∀ x, turn G r x = turn G b x := by
    intro x
    unfold turn
    rw [h1, hs, List.getLast?_append_of_ne_nil _ (segs_ne hb)]
  have t2 : ∀ x, turn G x r = turn G x a := by
    intro x
    unfold turn
    rw [h2, hs, List.head?_append_of_ne_nil _ (segs_ne ha)]
  induction pre with
  | nil =>
    simp only [List.nil_append, turns, turnsOf_one G ha hb h, List.head?_cons, Option.toList_some, List.map_cons, List.map_nil]
    cases post with
    | nil => simp
    | cons x post => simp [t1]
  | cons x pre ih =>
    simp only [List.cons_append, turns, ih]
    cases pre with
    | nil => simp [t2]
    | cons y pre => rfl

/-! ### Merging changes no value -/

theorem ends_one (G : Geo P R A) (pre : List (List P)) (a b : List P) (post : List (List P)) (r : List P)
    (ha : 2 ≤ a.length) (hb : 2 ≤ b.length) (h : mergeSingle a b = .ok r) :
    ends G (pre ++ r :: post) = ends G (pre ++ a :: b :: post) := by
  obtain ⟨_, h1, h2, hm⟩ := one_ends ha hb h
  unfold ends
  have e1 : (pre ++ r :: post).head?.bind List.head? = (pre ++ a :: b :: post).head?.bind List.head? := by
    cases pre with
    | nil => exact h2
    | cons x pre => rfl
  have e2 : (pre ++ r :: post).getLast?.bind List.getLast? = (pre ++ a :: b :: post).getLast?.bind List.getLast? := by
    rcases List.eq_nil_or_concat post with rfl | ⟨p, x, rfl⟩
    · simp [List.getLast?_append, h1]
    · simp [List.getLast?_append, List.getLast?_cons]
  rw [e1, e2]

theorem azimuth_ends (G : Geo P R A) {ls : List (List P)} (hl : ls ≠ []) (h : ∀ l ∈ ls, l ≠ []) :
    azimuth G ls = ends G ls := by
  unfold azimuth
  match ls, hl, h with
  | [l], _, h =>
    have hn : noPoints [l] = false := by simpa [noPoints] using h l (by simp)
    rw [hn]
    have hl := h l (by simp)
    simp only [Bool.false_eq_true, if_false, ends, plainAzimuth, List.head?_cons, Option.bind_some, List.getLast?_singleton,
      List.head?_eq_some_head hl, List.getLast?_eq_getLast_of_ne_nil hl]
  | a :: b :: ls, _, h =>
    have hn : noPoints (a :: b :: ls) = false := by
      have := h a (by simp)
      simp [noPoints, this]
    rw [hn]
    rfl

/-- **C71, merging.**  Joining parts that meet changes no value: not the length, the azimuth or the sums of directions.  The
joined parts have at least two points each (`single_point_fails`); addition is exact. -/
theorem merging_keeps_values_partial (G : Geo P R A) (hr : Exact G.zeroR G.addR) (ha : Exact G.zeroA G.addA)
    {acc ls gs : List (List P)} (hl : ls ≠ []) (h2 : ∀ l ∈ ls, 2 ≤ l.length) (hacc : ∀ l ∈ acc, l ≠ [])
    (h : multiMerge acc ls = .ok gs) (q : Ask) : expected G gs q = expected G (acc ++ ls) q := by
  have hne : ∀ l ∈ acc ++ ls, l ≠ [] := by
    intro l hh
    rcases List.mem_append.1 hh with hh | hh
    · exact hacc l hh
    · intro e; have := h2 l hh; rw [e] at this; simp at this
  have hne' : ∀ l ∈ gs, l ≠ [] := by
    refine cast (multiMerge_invariant (F := fun x => ∀ l ∈ x, l ≠ []) ?_ hl h2 h).symm hne
    intro pre a b post r h3 h4 h5
    obtain ⟨h6, _⟩ := one_ends h3 h4 h5
    have k1 : a ≠ [] := by rintro rfl; simp at h3
    have k2 : b ≠ [] := by rintro rfl; simp at h4
    have k3 : r ≠ [] := by rintro rfl; simp at h6
    simp [or_imp, forall_and, k1, k2, k3]
  have hgs : gs ≠ [] := by
    refine cast (multiMerge_invariant (F := fun x => x ≠ []) ?_ hl h2 h).symm (by simp [hl])
    intro pre a b post r _ _ _
    simp
  have hd : ∀ f, directions G f gs = directions G f (acc ++ ls) := by
    intro f
    rw [directions_total G f ha hne', directions_total G f ha hne, multiMerge_invariant (turns G) (turns_one G) hl h2 h]
  cases q with
  | length =>
    unfold expected
    simp only
    rw [length_flat G hr, length_flat G hr, multiMerge_invariant (F := fun x => x.flatMap segs) ?_ hl h2 h]
    intro pre a b post r _ _ h5
    simp [segs_merge h5]
  | azimuth =>
    unfold expected
    simp only
    rw [azimuth_ends G hgs hne', azimuth_ends G (by simp [hl]) hne, multiMerge_invariant (ends G) (ends_one G) hl h2 h]
  | directions => unfold expected; simp only; rw [hd]
  | absolute => unfold expected; simp only; rw [hd]

/-- A line in one part has the values of that part. -/
theorem one_part (G : Geo P R A) (hr : ∀ a, G.addR G.zeroR a = a) (l : List P) :
    expected G [l] .length = .ok (.len (toCell (plainLength G l))) ∧
    expected G [l] .azimuth = .ok (.angle (toCell (plainAzimuth G l))) ∧
    expected G [l] .directions = .ok (.angle (toCell (plainDirections G id l))) ∧
    expected G [l] .absolute = .ok (.angle (toCell (plainDirections G G.abs l))) := by
  refine ⟨?_, ?_, ?_, ?_⟩
  · unfold expected length total
    cases h : plainLength G l <;> simp [h, hr]
  all_goals
    unfold expected
    first | unfold azimuth | unfold directions
    cases l with
    | nil => rfl
    | cons a l => rfl

/-- Three parts of which two meet: merged to two parts, the values stay the same. -/
example : multiMerge [] [[0, 1], [1, 9], [5, 6]] = .ok [[0, 1, 9], [5, 6]] ∧
    expected demoGeo [[0, 1], [1, 9], [5, 6]] .directions = .ok (.angle (.val 110)) ∧
    expected demoGeo [[0, 1, 9], [5, 6]] .directions = .ok (.angle (.val 110)) ∧
    expected demoGeo [[0, 1, 9], [5, 6]] .length = .ok (.len (.val 10)) ∧
    expected demoGeo [[0, 1, 9], [5, 6]] .azimuth = .ok (.angle (.val 6)) := by decide

/-- `length_flat`, `directions_total`: addition of natural numbers is exact. -/
example : Exact demoGeo.zeroR demoGeo.addR ∧ Exact demoGeo.zeroA demoGeo.addA :=
  ⟨⟨fun a b c => Nat.add_assoc a b c, Nat.zero_add, Nat.add_zero⟩, ⟨fun a b c => Nat.add_assoc a b c, Nat.zero_add, Nat.add_zero⟩⟩

/-- Such a line was asked twice. -/
example : ∃ m : Multi Nat Nat Nat, Asked demoGeo m ∧ m.lines = [[0, 1], [1, 9], [5, 6]] ∧ m.data.length = .val 10 ∧
    m.data.azimuths = [.val 110, .invalid] ∧ (m.ask demoGeo .absolute).map Prod.fst = .ok (.angle (.val 111)) :=
  ⟨_, .ask (q := .directions) (a := .angle (.val 110))
    (.ask (q := .length) (a := .len (.val 10)) (.new [[0, 1], [1, 9], [5, 6]]) rfl) rfl, rfl, rfl, rfl, rfl⟩

/-! ### What is there to ask for -/

theorem anyTurn_eq (G : Geo P R A) (f : A → A) : ∀ {ls : List (List P)}, (∀ l ∈ ls, l ≠ []) →
    anyTurn G ls = (contributions G f ls).map fun r => r.any Option.isSome
  | [], _ => rfl
  | [a], _ => by
    have : (plainDirections G id a).isSome = (plainDirections G f a).isSome := by
      unfold plainDirections; split_ifs <;> rfl
    simp [anyTurn, contributions, this]
  | a :: b :: ls, h => by
    have ih := anyTurn_eq G f (ls := b :: ls) fun l hl => h l (List.mem_cons_of_mem _ hl)
    obtain ⟨r, hr⟩ := contributions_returns G f (ls := b :: ls) fun l hl => h l (List.mem_cons_of_mem _ hl)
    have hd : (plainDirections G id a).isSome = (plainDirections G f a).isSome := by
      unfold plainDirections; split_ifs <;> rfl
    rw [anyTurn, contributions, joint_turn G (h a (by simp)) (h b (by simp)), Outcome.bind_ok, Outcome.bind_ok, ih, hr, hd]
    cases plainDirections G f a <;> cases turn G a b <;> simp

/-- If every part has points, `has_directions` of a plain line tells whether `directions` and `absolute_directions` return. -/
theorem has_directions (G : Geo P R A) (f : A → A) {ls : List (List P)} (h : ∀ l ∈ ls, l ≠ []) :
    hasDirections G ls = (directions G f ls).map Option.isSome := by
  unfold hasDirections directions
  by_cases hn : noPoints ls = true
  · rw [if_pos hn, if_pos hn]; rfl
  · rw [if_neg hn, if_neg hn]
    match ls, h with
    | [], _ => rfl
    | [l], _ =>
      have : (plainDirections G id l).isSome = (plainDirections G f l).isSome := by
        unfold plainDirections; split_ifs <;> rfl
      simp [this]
    | a :: b :: ls, h =>
      simp only
      rw [anyTurn_eq G f h, map_map]
      congr 1
      funext r
      unfold total
      induction r with
      | nil => rfl
      | cons x r ih =>
        cases x with
        | none => simpa using ih
        | some x => simp

example : hasDirections demoGeo [[0, 1], [1, 9]] = .ok true ∧ hasDirections demoGeo [[0, 1], [2, 9]] = .ok false := by decide

/-- Exported parts: those without points are left out, no point is. -/
theorem exported_points (ls : List (List P)) : (withPoints ls).flatten = ls.flatten ∧ [] ∉ withPoints ls ∧
    sizes ls = (withPoints ls).flatten.length := by
  refine ⟨?_, by simp [withPoints], ?_⟩
  · induction ls with
    | nil => rfl
    | cons a ls ih =>
      cases a with
      | nil => simpa [withPoints] using ih
      | cons x a => simpa [withPoints] using ih
  · have key : ∀ (ls : List (List P)) (n : Nat), ls.foldl (fun n l => n + l.length) n = n + (withPoints ls).flatten.length := by
      intro ls
      induction ls with
      | nil => intro n; rfl
      | cons a ls ih =>
        intro n
        rw [List.foldl_cons, ih]
        cases a with
        | nil => simp [withPoints]
        | cons x a => simp [withPoints]; omega
    rw [sizes, key, Nat.zero_add]

example : withPoints [[0, 1], [], [2, 3]] = [[0, 1], [2, 3]] := by decide

/-! ### Counterexamples -/

/-- **C71 fails**: a part of one point between two parts that meet in it hides the change of direction. -/
theorem single_point_fails : multiMerge [] [[0, 1], [1], [1, 9]] = .ok [[0, 1, 9]] ∧
    expected demoGeo [[0, 1], [1], [1, 9]] .directions = .ok (.angle .invalid) ∧
    expected demoGeo [[0, 1, 9]] .directions = .ok (.angle (.val 110)) := by decide

/-- **C71 fails**: a part without points at the begin or end is undefined behaviour when asked for the azimuth, in between
when asked for directions; an evaluated line cannot even be built. -/
theorem empty_part_fails : azimuth demoGeo [[], [0, 1]] = .ub ∧ azimuth demoGeo [[0, 1], []] = .ub ∧
    directions demoGeo id [[0, 1], [], [1, 9]] = .ub ∧ Multi.eager demoGeo [[0, 1], [], [1, 9]] = .ub := by decide

/-- **C71 fails**: several parts that are all without points have no directions as a plain line; asking a lazily evaluated line
is undefined behaviour, and so is building an evaluated one. -/
theorem several_empty_fails : directions demoGeo id [[], []] = .ok none ∧
    (Multi.new [[], []]).ask demoGeo .directions = .ub ∧ Multi.eager demoGeo [[], []] = .ub := by decide

/-- **C71 fails**: assigning plain parts keeps the values, lazily evaluated or evaluated. -/
theorem multi_assign_fails : ∃ m e e' : Multi Nat Nat Nat, Asked demoGeo m ∧
    ((m.assignPlain [[5, 6]]).ask demoGeo .length).map Prod.fst = .ok (.len (.val 9)) ∧
    Multi.eager demoGeo [[0, 9]] = .ok e ∧ e.assignEager demoGeo [[5, 6]] = .ok e' ∧ e'.read .length = .len (.val 9) ∧
    length demoGeo [[5, 6]] = some 1 :=
  ⟨_, _, _, .ask (q := .length) (a := .len (.val 9)) (.new [[0, 9]]) rfl, rfl, rfl, rfl, rfl, by decide⟩

/-- **C71 fails**: merging parts into a line that was asked before keeps its values. -/
theorem multi_merge_stale_fails : ∃ m m' : Multi Nat Nat Nat, Asked demoGeo m ∧ m.merge [[9, 12]] = .ok m' ∧
    m'.lines = [[0, 9], [9, 12]] ∧ (m'.ask demoGeo .length).map Prod.fst = .ok (.len (.val 9)) ∧
    length demoGeo [[0, 9], [9, 12]] = some 12 :=
  ⟨_, _, .ask (q := .length) (a := .len (.val 9)) (.new [[0, 9]]) rfl, rfl, rfl, rfl, by decide⟩

end MM.MultiLine
