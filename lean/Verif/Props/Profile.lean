import Verif.Model.Profile
import Verif.Props.Osm
import Verif.Props.Rules

/-!
# C90: which ways the profiles import, and how the texts of the filters are read
-/

set_option autoImplicit false
set_option linter.unusedSectionVars false

namespace MM.Profile

open MM.Osm (Way Element St firstPoint expect named)

variable {P : Type}

/-! ### What an expression matches -/

/-- The texts that an expression matches. -/
def Lang : Re → List Char → Prop
  | .fail, _ => False
  | .eps, s => s = []
  | .chr c, s => s = [c]
  | .cls ex, s => ∃ c, c ∉ ex ∧ s = [c]
  | .seq a b, s => ∃ u v, s = u ++ v ∧ Lang a u ∧ Lang b v
  | .alt a b, s => Lang a s ∨ Lang b s
  | .star a, s => ∃ l : List (List Char), s = l.flatten ∧ ∀ u ∈ l, Lang a u

theorem nullable_iff (r : Re) : r.nullable = true ↔ Lang r [] := by
  induction r with
  | fail => simp [Re.nullable, Lang]
  | eps => simp [Re.nullable, Lang]
  | chr c => simp [Re.nullable, Lang]
  | cls ex => simp [Re.nullable, Lang]
  | seq a b iha ihb =>
    simp only [Re.nullable, Bool.and_eq_true, iha, ihb, Lang]
    constructor
    · rintro ⟨h1, h2⟩; exact ⟨[], [], rfl, h1, h2⟩
    · rintro ⟨u, v, h, h1, h2⟩
      obtain ⟨rfl, rfl⟩ := List.append_eq_nil_iff.1 h.symm
      exact ⟨h1, h2⟩
  | alt a b iha ihb => simp only [Re.nullable, Bool.or_eq_true, iha, ihb, Lang]
  | star a _ => simp only [Re.nullable, Lang, true_iff]; exact ⟨[], rfl, by simp⟩

theorem star_cons (a : Re) (c : Char) (s : List Char) : Lang (.star a) (c :: s) ↔
    ∃ u v, s = u ++ v ∧ Lang a (c :: u) ∧ Lang (.star a) v := by
  constructor
  · rintro ⟨l, h, hl⟩
    induction l with
    | nil => simp at h
    | cons x l ih =>
      cases x with
      | nil => exact ih (by simpa using h) (fun u hu => hl u (List.mem_cons_of_mem _ hu))
      | cons y u =>
        simp only [List.flatten_cons, List.cons_append, List.cons.injEq] at h
        obtain ⟨rfl, rfl⟩ := h
        exact ⟨u, l.flatten, rfl, hl _ (List.mem_cons_self ..), l, rfl, fun w hw => hl w (List.mem_cons_of_mem _ hw)⟩
  · rintro ⟨u, v, rfl, h1, l, rfl, h2⟩
    refine ⟨(c :: u) :: l, by simp, ?_⟩
    intro w hw
    rcases List.mem_cons.1 hw with rfl | hw
    · exact h1
    · exact h2 w hw

theorem deriv_iff (r : Re) (c : Char) : ∀ s, Lang (r.deriv c) s ↔ Lang r (c :: s) := by
  induction r with
  | fail => intro s; simp [Re.deriv, Lang]
  | eps => intro s; simp [Re.deriv, Lang]
  | chr x =>
    intro s
    simp only [Re.deriv]
    split
    · next h => subst h; simp [Lang]
    · next h => simp [Lang, Ne.symm h]
  | cls ex =>
    intro s
    simp only [Re.deriv]
    split
    · next h =>
      simp only [Lang, false_iff]
      rintro ⟨d, hd, he⟩
      simp only [List.cons.injEq] at he
      exact hd (he.1 ▸ h)
    · next h =>
      simp only [Lang]
      constructor
      · rintro rfl; exact ⟨c, h, rfl⟩
      · rintro ⟨d, _, he⟩; simp only [List.cons.injEq] at he; exact he.2
  | seq a b iha ihb =>
    intro s
    have hl : Lang (.seq (a.deriv c) b) s ↔ ∃ u v, s = u ++ v ∧ Lang a (c :: u) ∧ Lang b v := by simp only [Lang, iha]
    have hr : Lang (.seq a b) (c :: s) ↔ (∃ u v, s = u ++ v ∧ Lang a (c :: u) ∧ Lang b v) ∨ (Lang a [] ∧ Lang b (c :: s)) := by
      simp only [Lang]
      constructor
      · rintro ⟨u, v, h, h1, h2⟩
        cases u with
        | nil => right; simp only [List.nil_append] at h; subst h; exact ⟨h1, h2⟩
        | cons y u =>
          simp only [List.cons_append, List.cons.injEq] at h
          obtain ⟨rfl, rfl⟩ := h
          exact .inl ⟨u, v, rfl, h1, h2⟩
      · rintro (⟨u, v, rfl, h1, h2⟩ | ⟨h1, h2⟩)
        · exact ⟨c :: u, v, rfl, h1, h2⟩
        · exact ⟨[], c :: s, rfl, h1, h2⟩
    rw [hr]
    simp only [Re.deriv]
    by_cases hn : a.nullable = true
    · rw [if_pos hn]
      have : Lang (.alt (.seq (a.deriv c) b) (b.deriv c)) s ↔ Lang (.seq (a.deriv c) b) s ∨ Lang (b.deriv c) s := Iff.rfl
      rw [this, hl, ihb]
      simp [(nullable_iff a).1 hn]
    · rw [if_neg hn, hl]
      have : ¬ Lang a [] := fun h => hn ((nullable_iff a).2 h)
      simp [this]
  | alt a b iha ihb => intro s; simp only [Re.deriv, Lang, iha, ihb]
  | star a iha =>
    intro s
    rw [star_cons]
    simp only [Re.deriv]
    have : Lang (.seq (a.deriv c) (.star a)) s ↔ ∃ u v, s = u ++ v ∧ Lang (a.deriv c) u ∧ Lang (.star a) v := Iff.rfl
    rw [this]
    simp only [iha]

theorem test_iff (r : Re) (s : List Char) : r.test s = true ↔ Lang r s := by
  induction s generalizing r with
  | nil => exact nullable_iff r
  | cons c s ih => rw [Re.test, ih, deriv_iff]

/-! ### Which texts are accepted -/

/-- What the check demands of a rule. -/
def Admissible (r : Rules.Rule) : Prop := r.key ≠ [] ∧ ',' ∉ r.key ∧ '=' ∉ r.key ∧ ∀ v, r.value = some v → v ≠ [] ∧ ',' ∉ v ∧ '|' ∉ v

theorem word_iff (w s : List Char) : Lang (word w) s ↔ s = w := by
  induction w generalizing s with
  | nil => simp [word, Lang]
  | cons c w ih =>
    simp only [word, Lang, ih]
    constructor
    · rintro ⟨u, v, rfl, rfl, rfl⟩; rfl
    · rintro rfl; exact ⟨[c], w, rfl, rfl, rfl⟩

theorem boolean_iff (s : List Char) : Lang boolean s ↔ ∃ b, s = Rules.showBool b := by
  simp only [boolean, Lang, word_iff]
  constructor
  · rintro (h | h)
    · exact ⟨true, h⟩
    · exact ⟨false, h⟩
  · rintro ⟨b, rfl⟩; cases b
    · exact .inr rfl
    · exact .inl rfl

theorem class_star (ex s : List Char) : Lang (.star (.cls ex)) s ↔ ∀ c ∈ s, c ∉ ex := by
  constructor
  · rintro ⟨l, rfl, hl⟩ c hc
    obtain ⟨u, hu, hcu⟩ := List.mem_flatten.1 hc
    obtain ⟨d, hd, rfl⟩ := hl u hu
    simp only [List.mem_singleton] at hcu
    exact hcu ▸ hd
  · intro h
    refine ⟨s.map (fun c => [c]), ?_, ?_⟩
    · clear h
      induction s with
      | nil => rfl
      | cons c s ih => simp [← ih]
    · intro u hu
      obtain ⟨c, hc, rfl⟩ := List.mem_map.1 hu
      exact ⟨c, h c hc, rfl⟩

theorem class_plus (ex s : List Char) : Lang (plus (.cls ex)) s ↔ s ≠ [] ∧ ∀ c ∈ s, c ∉ ex := by
  have : Lang (plus (.cls ex)) s ↔ ∃ u v, s = u ++ v ∧ (∃ c, c ∉ ex ∧ u = [c]) ∧ Lang (.star (.cls ex)) v := Iff.rfl
  rw [this]
  simp only [class_star]
  constructor
  · rintro ⟨u, v, rfl, ⟨c, hc, rfl⟩, hv⟩
    refine ⟨by simp, ?_⟩
    intro d hd
    rcases List.mem_cons.1 hd with rfl | hd
    · exact hc
    · exact hv d hd
  · rintro ⟨hne, h⟩
    cases s with
    | nil => exact absurd rfl hne
    | cons c s => exact ⟨[c], s, rfl, ⟨c, h c (List.mem_cons_self ..), rfl⟩, fun d hd => h d (List.mem_cons_of_mem _ hd)⟩

theorem value_iff (s : List Char) : Lang valuePart s ↔ ∃ v, s = Rules.showValue v ∧ ∀ x, v = some x → x ≠ [] ∧ ',' ∉ x ∧ '|' ∉ x := by
  have : Lang valuePart s ↔ s = [] ∨ ∃ u v, s = u ++ v ∧ u = ['='] ∧ Lang (plus (.cls [',', '|'])) v := Iff.rfl
  rw [this]
  simp only [class_plus]
  constructor
  · rintro (rfl | ⟨u, v, rfl, rfl, h1, h2⟩)
    · exact ⟨none, rfl, by simp⟩
    · refine ⟨some v, rfl, ?_⟩
      intro x hx
      simp only [Option.some.injEq] at hx
      subst hx
      exact ⟨h1, fun h => by simpa using h2 _ h, fun h => by simpa using h2 _ h⟩
  · rintro ⟨v, rfl, hv⟩
    cases v with
    | none => exact .inl rfl
    | some x =>
      obtain ⟨h1, h2, h3⟩ := hv x rfl
      refine .inr ⟨['='], x, rfl, rfl, h1, ?_⟩
      intro c hc
      simp only [List.mem_cons, List.not_mem_nil, or_false, not_or]
      exact ⟨fun h => h2 (h ▸ hc), fun h => h3 (h ▸ hc)⟩

theorem rule_iff (s : List Char) : Lang rulePart s ↔ ∃ r : Rules.Rule, s = '|' :: Rules.showRule r ∧ Admissible r := by
  have : Lang rulePart s ↔ ∃ u v, s = u ++ v ∧ u = ['|'] ∧ ∃ b w, v = b ++ w ∧ Lang boolean b ∧ ∃ k x, w = k ++ x ∧ k = [','] ∧
      ∃ y z, x = y ++ z ∧ Lang (plus (.cls [',', '='])) y ∧ Lang valuePart z := Iff.rfl
  rw [this]
  simp only [boolean_iff, value_iff, class_plus]
  constructor
  · rintro ⟨_, _, rfl, rfl, _, _, rfl, ⟨b, rfl⟩, _, _, rfl, rfl, y, _, rfl, ⟨h1, h2⟩, v, rfl, h3⟩
    refine ⟨⟨b, y, v⟩, by simp [Rules.showRule], h1, fun h => by simpa using h2 _ h, fun h => by simpa using h2 _ h, h3⟩
  · rintro ⟨⟨b, y, v⟩, rfl, h1, h2, h3, h4⟩
    refine ⟨['|'], _, rfl, rfl, Rules.showBool b, ',' :: y ++ Rules.showValue v, by simp, ⟨b, rfl⟩, [','], _, rfl, rfl, y,
      _, rfl, ⟨h1, ?_⟩, v, rfl, h4⟩
    intro c hc
    simp only [List.mem_cons, List.not_mem_nil, or_false, not_or]
    exact ⟨fun h => h2 (h ▸ hc), fun h => h3 (h ▸ hc)⟩

/-- **C90.**  The check accepts exactly the texts of a default and rules with keys that are not empty and have no `,` and no `=`, and
values that are not empty and have no `,` and no `|`. -/
theorem accept_iff (s : List Char) : pattern.test s = true ↔ ∃ (d : Bool) (rs : List Rules.Rule), s = Rules.showSpec d rs ∧
    ∀ r ∈ rs, Admissible r := by
  rw [test_iff]
  have : Lang pattern s ↔ ∃ u v, s = u ++ v ∧ Lang boolean u ∧ ∃ l : List (List Char), v = l.flatten ∧ ∀ x ∈ l, Lang rulePart x := Iff.rfl
  rw [this]
  clear this
  simp only [boolean_iff, rule_iff]
  constructor
  · rintro ⟨_, _, rfl, ⟨d, rfl⟩, l, rfl, hl⟩
    have : ∃ rs : List Rules.Rule, l.flatten = Rules.showRest rs ∧ ∀ r ∈ rs, Admissible r := by
      induction l with
      | nil => exact ⟨[], rfl, by simp⟩
      | cons x l ih =>
        obtain ⟨rs, h1, h2⟩ := ih (fun y hy => hl y (List.mem_cons_of_mem _ hy))
        obtain ⟨r, rfl, hr⟩ := hl x (List.mem_cons_self ..)
        refine ⟨r :: rs, by simp [Rules.showRest, h1], ?_⟩
        intro q hq
        rcases List.mem_cons.1 hq with rfl | hq
        · exact hr
        · exact h2 q hq
    obtain ⟨rs, h1, h2⟩ := this
    exact ⟨d, rs, by rw [h1]; rfl, h2⟩
  · rintro ⟨d, rs, rfl, h⟩
    refine ⟨_, _, rfl, ⟨d, rfl⟩, rs.map (fun r => '|' :: Rules.showRule r), ?_, ?_⟩
    · clear h
      induction rs with
      | nil => rfl
      | cons r rs ih => simp [Rules.showRest, ih]
    · intro x hx
      obtain ⟨r, hr, rfl⟩ := List.mem_map.1 hx
      exact ⟨r, rfl, h r hr⟩

/-! ### What filters say of a tag -/

/-- A rule speaks of a tag. -/
def Speaks (r : Rules.Rule) (tag : String × String) : Prop := tag.1.toList = r.key ∧ ∀ v, r.value = some v → tag.2.toList = v

open Classical in
/-- The documented meaning: the first rule that speaks of the tag, otherwise the default. -/
noncomputable def verdict (d : Bool) : List Rules.Rule → String × String → Bool
  | [], _ => d
  | r :: rs, tag => if Speaks r tag then r.result else verdict d rs tag

theorem applies_iff (r : Rules.Rule) (tag : String × String) : (Rules.toFilterRule r).applies tag = true ↔ Speaks r tag := by
  obtain ⟨res, k, v⟩ := r
  obtain ⟨a, b⟩ := tag
  have h1 : ∀ (x : List Char) (y : String), String.ofList x = y ↔ y.toList = x := by
    intro x y
    constructor
    · rintro rfl; simp
    · rintro rfl; simp
  cases v with
  | none => simp [Rules.toFilterRule, Osm.Rule.applies, Speaks, h1]
  | some v => simp [Rules.toFilterRule, Osm.Rule.applies, Speaks, h1]

theorem test_says (d : Bool) (rs : List Rules.Rule) (tag : String × String) :
    (⟨d, rs.map Rules.toFilterRule⟩ : Osm.Filter).test tag = verdict d rs tag := by
  unfold Osm.Filter.test
  induction rs with
  | nil => rfl
  | cons r rs ih =>
    simp only [List.map_cons, List.find?_cons, verdict]
    by_cases h : Speaks r tag
    · rw [if_pos h, (applies_iff r tag).2 h]; rfl
    · rw [if_neg h]
      have : (Rules.toFilterRule r).applies tag = false := by
        rw [← Bool.not_eq_true]; exact fun hc => h ((applies_iff r tag).1 hc)
      rw [this]
      exact ih

/-! ### Edges of the kept ways -/

open Classical in
/-- The edges between two nodes. -/
noncomputable def directed (oneway reverse : Prop) (way : Nat) (a b : Nat × P) : List (Option (Nat × P) × Option (Nat × P) × Nat × (P × P)) :=
  if reverse then [expect way b a] else if oneway then [expect way a b] else [expect way a b, expect way b a]

/-- The edges between consecutive nodes of which both are known. -/
noncomputable def wayEdges (kn : Nat → Option P) (oneway reverse : Prop) (way : Nat) :
    List Nat → List (Option (Nat × P) × Option (Nat × P) × Nat × (P × P))
  | a :: b :: rs => (match kn a, kn b with
    | some p, some q => directed oneway reverse way (a, p) (b, q)
    | _, _ => []) ++ wayEdges kn oneway reverse way (b :: rs)
  | _ => []

open Classical in
/-- The edges of all ways that are kept; `pre` came before. -/
noncomputable def roadEdges (kept oneway reverse : Way → Prop) (pre : List (Element P)) :
    List (Element P) → List (Option (Nat × P) × Option (Nat × P) × Nat × (P × P))
  | [] => []
  | .node n :: es => roadEdges kept oneway reverse (pre ++ [.node n]) es
  | .way w :: es => (if kept w then wayEdges (firstPoint pre) (oneway w) (reverse w) w.id w.refs else []) ++
      roadEdges kept oneway reverse (pre ++ [.way w]) es

theorem run_edges (f : Osm.Filters) (kept oneway reverse : Way → Prop) (hk : ∀ w, Osm.used f w = true ↔ kept w)
    (ho : ∀ w, (Osm.detectOneway f w.tags).1 = true ↔ oneway w) (hr : ∀ w, (Osm.detectOneway f w.tags).2 = true ↔ reverse w)
    (es : List (Element P)) (hne : ∀ w, .way w ∈ es → kept w → w.refs ≠ [])
    (hrev : ∀ w, .way w ∈ es → kept w → reverse w → oneway w) : ∃ st, Osm.run f St.empty es = .ok st ∧
    st.edges.map (named st.verts) = roadEdges kept oneway reverse [] es := by
  obtain ⟨st, h1, h2⟩ := Osm.edges_exact f es (fun w hw hu => hne w hw ((hk w).1 hu))
  refine ⟨st, h1, h2.trans ?_⟩
  clear h1 h2 hne
  generalize ([] : List (Element P)) = pre
  induction es generalizing pre with
  | nil => rfl
  | cons e es ih =>
    have hih := ih (fun w hw => hrev w (List.mem_cons_of_mem _ hw))
    cases e with
    | node n => exact hih _
    | way w =>
      simp only [Osm.expected, roadEdges, hih]
      congr 1
      by_cases hu : kept w
      swap
      · rw [if_neg hu, if_neg (fun h => hu ((hk w).1 h))]
      rw [if_pos hu, if_pos ((hk w).2 hu)]
      have hb : ∀ a b : Nat × P, Osm.between (Osm.detectOneway f w.tags).1 (Osm.detectOneway f w.tags).2 w.id a b =
          directed (oneway w) (reverse w) w.id a b := by
        intro a b
        unfold Osm.between directed
        have h1 := ho w
        have h2 := hr w
        have h3 := hrev w (List.mem_cons_self ..) hu
        by_cases ho : oneway w <;> by_cases hr : reverse w
        · rw [if_pos (h1.2 ho), if_pos (h2.2 hr), if_pos hr]
        · rw [if_pos (h1.2 ho), if_neg (fun h => hr (h2.1 h)), if_neg hr, if_pos ho]
        · exact absurd (h3 hr) ho
        · rw [if_neg (fun h => ho (h1.1 h)), if_neg hr, if_neg ho]
      have : ∀ rs, Osm.along (firstPoint pre) (Osm.detectOneway f w.tags).1 (Osm.detectOneway f w.tags).2 w.id rs =
          wayEdges (firstPoint pre) (oneway w) (reverse w) w.id rs := by
        intro rs
        induction rs with
        | nil => rfl
        | cons a rs ih2 =>
          cases rs with
          | nil => rfl
          | cons b rs =>
            simp only [Osm.along, wayEdges, ih2, hb]
            cases firstPoint pre a <;> cases firstPoint pre b <;> rfl
      exact this w.refs

/-! ### The profile for cars -/

/-- Kinds of ways that are no roads for cars. -/
def notForCars : List String :=
  ["footway", "pedestrian", "steps", "bridleway", "construction", "cycleway", "path", "bus_guideway", "platform"]

/-- A visible way with a kind of road for cars. -/
def isCarRoad (w : Way) : Prop := w.visible = true ∧ ∃ v, ("highway", v) ∈ w.tags ∧ v ∉ notForCars

theorem car_query (k v : String) : carFilters.query.test (k, v) = true ↔ k = "highway" ∧ v ∉ notForCars := by
  by_cases hk : k = "highway"
  · subst hk
    by_cases hv : v ∈ notForCars
    · simp only [notForCars, List.mem_cons, List.not_mem_nil, or_false] at hv
      simp only [notForCars, List.mem_cons, List.not_mem_nil, or_false, hv, not_true, and_false, iff_false]
      rcases hv with rfl | rfl | rfl | rfl | rfl | rfl | rfl | rfl | rfl <;> decide
    · simp only [notForCars, List.mem_cons, List.not_mem_nil, or_false, not_or] at hv
      have h := hv
      obtain ⟨h1, h2, h3, h4, h5, h6, h7, h8, h9⟩ := h
      simp only [notForCars, List.mem_cons, List.not_mem_nil, or_false, hv, not_false_eq_true, and_true, iff_true]
      simp [carFilters, Osm.Filter.test, Osm.Rule.applies, Ne.symm h1, Ne.symm h2, Ne.symm h3, Ne.symm h4, Ne.symm h5, Ne.symm h6,
        Ne.symm h7, Ne.symm h8, Ne.symm h9]
  · simp [carFilters, Osm.Filter.test, Osm.Rule.applies, Ne.symm hk, hk]

theorem used_car (w : Way) : Osm.used carFilters w = true ↔ isCarRoad w := by
  unfold Osm.used isCarRoad Osm.keep
  simp only [Bool.and_eq_true]
  refine and_congr_right fun _ => ?_
  have hall : w.tags.all carFilters.filter.test = true := by simp [carFilters, Osm.Filter.test]
  rw [hall]
  constructor
  · intro h
    split at h
    · next ha =>
      rw [List.any_eq_true] at ha
      obtain ⟨⟨k, v⟩, ht, hq⟩ := ha
      obtain ⟨rfl, hv⟩ := (car_query k v).1 hq
      exact ⟨v, ht, hv⟩
    · simp at h
  · rintro ⟨v, hv, hn⟩
    rw [if_pos]
    rw [List.any_eq_true]
    exact ⟨_, hv, (car_query _ _).2 ⟨rfl, hn⟩⟩

/-- **C90.**  With the profile for cars, whatever the texts of the filters, the network has exactly the edges of the ways for cars, in
the tagged directions.  Missing from the full property: ways tagged only as reverse one-way (`car_reverse_fails`) and kept ways without
nodes. -/
theorem car_partial (i : Import) (hi : i.profile = "car") (es : List (Element P)) (hne : ∀ w, .way w ∈ es → isCarRoad w → w.refs ≠ [])
    (hrev : ∀ w, .way w ∈ es → isCarRoad w → Osm.taggedReverse w → Osm.taggedOneway w) : ∃ st, importOsm i es = .ok st ∧
    st.edges.map (named st.verts) = roadEdges isCarRoad Osm.taggedOneway Osm.taggedReverse [] es := by
  obtain ⟨st, h1, h2⟩ := run_edges carFilters isCarRoad Osm.taggedOneway Osm.taggedReverse used_car Osm.detect_oneway Osm.detect_reverse
    es hne hrev
  exact ⟨st, by simp [importOsm, correct, filters, hi, h1], h2⟩

/-! ### Filters given as text -/

/-- A text that means a default and rules, without `|` in the keys. -/
structure Written (s : List Char) (d : Bool) (rs : List Rules.Rule) : Prop where
  text : s = Rules.showSpec d rs
  adm : ∀ r ∈ rs, Admissible r
  key : ∀ r ∈ rs, '|' ∉ r.key

theorem written_filter {s : List Char} {d : Bool} {rs : List Rules.Rule} (h : Written s d rs) :
    pattern.test s = true ∧ Rules.createFilter s = some ⟨d, rs.map Rules.toFilterRule⟩ := by
  refine ⟨(accept_iff s).2 ⟨d, rs, h.text, h.adm⟩, ?_⟩
  rw [h.text]
  exact Rules.filter_show d rs (fun r hr => ⟨h.key r hr, (h.adm r hr).2.2.1, fun v hv => ((h.adm r hr).2.2.2 v hv).2.2⟩)

/-- A way that the query asks for and the filter leaves. -/
def isKept (qd : Bool) (qs : List Rules.Rule) (fd : Bool) (fs : List Rules.Rule) (w : Way) : Prop :=
  w.visible = true ∧ (∃ t ∈ w.tags, verdict qd qs t = true) ∧ ∀ t ∈ w.tags, verdict fd fs t = true

/-- **C90.**  With the manual profile the network has exactly the edges of the ways that have a tag the query accepts and no tag the filter
rejects, in the directions that the one-way texts demand.  Missing from the full property: accepted texts with `|` in a key
(`key_fails`), ways for which only the reverse text matches (`manual_reverse_fails`), kept ways without nodes, and ways without tags,
which no text keeps (`untagged_fails`). -/
theorem manual_partial (i : Import) (hi : i.profile = "manual") (qd fd od rd : Bool) (qs fs os rs : List Rules.Rule)
    (hq : Written i.query qd qs) (hf : Written i.filter fd fs) (ho : Written i.oneway od os) (hr : Written i.reverse rd rs)
    (es : List (Element P)) (hne : ∀ w, .way w ∈ es → isKept qd qs fd fs w → w.refs ≠ [])
    (hrev : ∀ w, .way w ∈ es → isKept qd qs fd fs w → (∃ t ∈ w.tags, verdict rd rs t = true) → ∃ t ∈ w.tags, verdict od os t = true) :
    ∃ st, importOsm i es = .ok st ∧ st.edges.map (named st.verts) = roadEdges (isKept qd qs fd fs)
      (fun w => ∃ t ∈ w.tags, verdict od os t = true) (fun w => ∃ t ∈ w.tags, verdict rd rs t = true) [] es := by
  have hc : correct i = true := by
    simp [correct, hi, (written_filter hq).1, (written_filter hf).1, (written_filter ho).1, (written_filter hr).1]
  have hfi : filters i = some ⟨⟨qd, qs.map Rules.toFilterRule⟩, ⟨fd, fs.map Rules.toFilterRule⟩, ⟨od, os.map Rules.toFilterRule⟩,
      ⟨rd, rs.map Rules.toFilterRule⟩⟩ := by
    simp [filters, hi, manualFilters, (written_filter hq).2, (written_filter hf).2, (written_filter ho).2, (written_filter hr).2]
  obtain ⟨st, h1, h2⟩ := run_edges ⟨⟨qd, qs.map Rules.toFilterRule⟩, ⟨fd, fs.map Rules.toFilterRule⟩, ⟨od, os.map Rules.toFilterRule⟩,
      ⟨rd, rs.map Rules.toFilterRule⟩⟩ (isKept qd qs fd fs) (fun w => ∃ t ∈ w.tags, verdict od os t = true)
      (fun w => ∃ t ∈ w.tags, verdict rd rs t = true) (by
        intro w
        unfold Osm.used isKept Osm.keep
        simp only [Bool.and_eq_true]
        refine and_congr_right fun _ => ?_
        have ha : (w.tags.any (⟨qd, qs.map Rules.toFilterRule⟩ : Osm.Filter).test = true) ↔ ∃ t ∈ w.tags, verdict qd qs t = true := by
          simp only [List.any_eq_true, test_says]
        have hb : (w.tags.all (⟨fd, fs.map Rules.toFilterRule⟩ : Osm.Filter).test = true) ↔ ∀ t ∈ w.tags, verdict fd fs t = true := by
          simp only [List.all_eq_true, test_says]
        by_cases hx : ∃ t ∈ w.tags, verdict qd qs t = true
        · rw [if_pos (ha.2 hx), hb]; simp only [hx, true_and]
        · rw [if_neg (fun h => hx (ha.1 h))]; simp only [hx, false_and, Bool.false_eq_true])
      (by intro w; simp only [Osm.detectOneway, List.any_eq_true, test_says])
      (by intro w; simp only [Osm.detectOneway, List.any_eq_true, test_says]) es hne hrev
  exact ⟨st, by simp [importOsm, hc, hfi, h1], h2⟩

/-- **C90.**  The import is refused exactly for an unknown profile, or with the manual profile and a text that is none. -/
theorem refused_iff (i : Import) : correct i = false ↔ (i.profile ≠ "car" ∧ i.profile ≠ "manual") ∨
    (i.profile = "manual" ∧ ∃ s ∈ [i.query, i.filter, i.oneway, i.reverse],
      ∀ (d : Bool) (rs : List Rules.Rule), (∀ r ∈ rs, Admissible r) → s ≠ Rules.showSpec d rs) := by
  have hs : ∀ s, pattern.test s = false ↔ ∀ (d : Bool) (rs : List Rules.Rule), (∀ r ∈ rs, Admissible r) → s ≠ Rules.showSpec d rs := by
    intro s
    rw [← Bool.not_eq_true, accept_iff]
    constructor
    · intro h d rs hr he; exact h ⟨d, rs, he, hr⟩
    · rintro h ⟨d, rs, he, hr⟩; exact h d rs hr he
  unfold correct
  by_cases hm : i.profile = "manual"
  · have h1 : ¬ (i.profile ≠ "car" ∧ i.profile ≠ "manual") := by simp [hm]
    rw [if_neg h1, if_pos hm]
    simp only [hm, ← hs, List.mem_cons, List.not_mem_nil, or_false]
    simp only [Bool.and_eq_false_iff]
    simp
    grind
  · by_cases hc : i.profile = "car"
    · simp [hc]
    · simp [hc, hm]

/-- Refusing is an exception, whatever the file has. -/
theorem import_refused (i : Import) (es : List (Element P)) (h : (i.profile ≠ "car" ∧ i.profile ≠ "manual") ∨
    (i.profile = "manual" ∧ ∃ s ∈ [i.query, i.filter, i.oneway, i.reverse],
      ∀ (d : Bool) (rs : List Rules.Rule), (∀ r ∈ rs, Admissible r) → s ≠ Rules.showSpec d rs)) : importOsm i es = .throws := by
  rw [importOsm, (refused_iff i).2 h]
  rfl

/-! ### Cases and counterexamples -/

/-- The example of the documentation. -/
def demo : Import := ⟨"manual", "false|false,highway=construction|true,highway".toList, "true|false,access=no|false,access=private".toList,
  "false|true,oneway=yes|true,oneway=true".toList, "false".toList⟩

/-- Three nodes and four ways. -/
def demoFile : List (Element Nat) := [.node ⟨1, true, 10⟩, .node ⟨2, true, 20⟩, .node ⟨3, true, 30⟩,
  .way ⟨100, true, [1, 2], [("highway", "primary"), ("oneway", "yes")]⟩, .way ⟨101, true, [2, 3], [("highway", "construction")]⟩,
  .way ⟨102, true, [2, 3], [("access", "no"), ("highway", "primary")]⟩, .way ⟨103, true, [3, 1], [("highway", "footway")]⟩]

example : importOsm demo demoFile = .ok ⟨[⟨1, 10, some 0⟩, ⟨2, 20, some 1⟩, ⟨3, 30, some 2⟩], false, [(1, 10), (2, 20), (3, 30)],
    [⟨0, 1, 100, (10, 20)⟩, ⟨2, 0, 103, (30, 10)⟩, ⟨0, 2, 103, (10, 30)⟩]⟩ := by decide +kernel

example : importOsm Import.default demoFile = .ok ⟨[⟨1, 10, some 0⟩, ⟨2, 20, some 1⟩, ⟨3, 30, some 2⟩], false, [(1, 10), (2, 20), (3, 30)],
    [⟨0, 1, 100, (10, 20)⟩, ⟨1, 2, 102, (20, 30)⟩, ⟨2, 1, 102, (30, 20)⟩]⟩ := by decide +kernel

example : Written demo.query false [⟨false, "highway".toList, some "construction".toList⟩, ⟨true, "highway".toList, none⟩] := by
  refine ⟨by decide +kernel, ?_, ?_⟩
  · intro r hr
    simp only [List.mem_cons, List.not_mem_nil, or_false] at hr
    rcases hr with rfl | rfl
    · refine ⟨by decide, by decide, by decide, ?_⟩
      intro v hv
      simp only [Option.some.injEq] at hv
      subst hv
      decide
    · exact ⟨by decide, by decide, by decide, by simp⟩
  · intro r hr
    simp only [List.mem_cons, List.not_mem_nil, or_false] at hr
    rcases hr with rfl | rfl <;> decide

example : (∀ w, .way w ∈ demoFile → isCarRoad w → w.refs ≠ []) ∧ (∀ w, .way w ∈ demoFile → isCarRoad w → Osm.taggedReverse w → Osm.taggedOneway w) ∧
    isCarRoad ⟨102, true, [2, 3], [("access", "no"), ("highway", "primary")]⟩ ∧ ¬ isCarRoad ⟨103, true, [3, 1], [("highway", "footway")]⟩ := by
  unfold demoFile isCarRoad Osm.taggedReverse Osm.taggedOneway notForCars
  simp

example : correct ⟨"bike", [], [], [], []⟩ = false ∧ correct { demo with query := "false|true,highway=a,b".toList } = false ∧
    correct { demo with query := "false|highway".toList } = false := by decide +kernel

/-- **C90 fails** (key): the text "true|false,a|b" is accepted, its only reading is a rule for the key `a|b`, but it rejects the ways with the
key `a` and the ways with the key `b`, and not those with the key `a|b`. -/
theorem key_fails : pattern.test "true|false,a|b".toList = true ∧
    (∀ (d : Bool) (rs : List Rules.Rule), (∀ r ∈ rs, Admissible r) → "true|false,a|b".toList = Rules.showSpec d rs →
      d = true ∧ rs = [⟨false, "a|b".toList, none⟩]) ∧
    Rules.createFilter "true|false,a|b".toList = some ⟨true, [⟨false, "a", none⟩, ⟨false, "b", none⟩]⟩ := by
  refine ⟨by decide +kernel, ?_, by rfl⟩
  intro d rs _ h
  have hd : d = true := by
    cases d with
    | true => rfl
    | false => simp [Rules.showSpec, Rules.showBool] at h
  subst hd
  refine ⟨rfl, ?_⟩
  have h1 : "|false,a|b".toList = Rules.showRest rs := by
    have : "true|false,a|b".toList = Rules.showBool true ++ "|false,a|b".toList := by decide
    rw [this] at h
    exact List.append_cancel_left h
  have hc : ∀ (l : List Rules.Rule), l ≠ [] → ',' ∈ Rules.showRest l := by
    intro l hl
    cases l with
    | nil => exact absurd rfl hl
    | cons x l => simp [Rules.showRest, Rules.showRule]
  cases rs with
  | nil => simp [Rules.showRest] at h1
  | cons r rs =>
    obtain ⟨b, k, v⟩ := r
    have hb : b = false := by
      cases b with
      | false => rfl
      | true => simp [Rules.showRest, Rules.showRule, Rules.showBool] at h1
    subst hb
    have h2 : "a|b".toList = k ++ Rules.showValue v ++ Rules.showRest rs := by
      simp only [Rules.showRest, Rules.showRule, List.cons_append, List.append_assoc] at h1
      have : "|false,a|b".toList = '|' :: (Rules.showBool false ++ ',' :: "a|b".toList) := by decide
      rw [this] at h1
      simp only [List.cons.injEq, true_and] at h1
      have h3 := List.append_cancel_left h1
      simp only [List.cons.injEq, true_and] at h3
      rw [h3, List.append_assoc]
    have hrs : rs = [] := by
      by_contra hne
      have h3 : ',' ∈ "a|b".toList := by rw [h2]; exact List.mem_append_right _ (hc rs hne)
      revert h3
      decide
    subst hrs
    cases v with
    | some v =>
      have h3 : '=' ∈ "a|b".toList := by rw [h2]; simp [Rules.showValue]
      exact absurd h3 (by decide)
    | none =>
      have h4 : "a|b".toList = k := by simpa [Rules.showValue, Rules.showRest] using h2
      rw [h4]

/-- **C90 fails** (untagged): the default query "true" does not keep a way without tags. -/
theorem untagged_fails : importOsm ⟨"manual", "true".toList, "true".toList, "false".toList, "false".toList⟩
    [.node ⟨1, true, 10⟩, .node ⟨2, true, 20⟩, .way ⟨100, true, [1, 2], []⟩] =
      .ok ⟨[⟨1, 10, none⟩, ⟨2, 20, none⟩], false, [], []⟩ := by decide +kernel

/-- **C90 fails** (reverse): with the profile for cars a way tagged `oneway=-1` is passable in both directions. -/
theorem car_reverse_fails : importOsm Import.default [.node ⟨1, true, 10⟩, .node ⟨2, true, 20⟩,
      .way ⟨100, true, [1, 2], [("highway", "primary"), ("oneway", "-1")]⟩] =
    .ok ⟨[⟨1, 10, some 0⟩, ⟨2, 20, some 1⟩], false, [(1, 10), (2, 20)], [⟨0, 1, 100, (10, 20)⟩, ⟨1, 0, 100, (20, 10)⟩]⟩ := by decide +kernel

/-- **C90 fails** (reverse): the example of the documentation of the reverse text, "all ways tagged with oneway=reverse become directed edges in
the opposing direction": the way gets edges in both directions. -/
theorem manual_reverse_fails : importOsm ⟨"manual", "true".toList, "true".toList, "false|true,oneway=yes|true,oneway=true".toList,
      "false|true,oneway=reverse".toList⟩ [.node ⟨1, true, 10⟩, .node ⟨2, true, 20⟩,
      .way ⟨100, true, [1, 2], [("highway", "primary"), ("oneway", "reverse")]⟩] =
    .ok ⟨[⟨1, 10, some 0⟩, ⟨2, 20, some 1⟩], false, [(1, 10), (2, 20)], [⟨0, 1, 100, (10, 20)⟩, ⟨1, 0, 100, (20, 10)⟩]⟩ := by decide +kernel

/-- **C90.**  The manual profile without further texts keeps every visible way with a tag, in both directions. -/
theorem manual_default (es : List (Element P)) (hne : ∀ w, .way w ∈ es → w.visible = true → w.tags ≠ [] → w.refs ≠ []) :
    ∃ st, importOsm { Import.default with profile := "manual" } es = .ok st ∧ st.edges.map (named st.verts) =
      roadEdges (fun w => w.visible = true ∧ w.tags ≠ []) (fun _ => False) (fun _ => False) [] es := by
  have hw : ∀ d : Bool, Written (Rules.showSpec d []) d [] := fun d => ⟨rfl, by simp, by simp⟩
  have hk : ∀ w, isKept true [] true [] w ↔ w.visible = true ∧ w.tags ≠ [] := by
    intro w
    have : ∀ t, verdict true [] t = true := fun _ => rfl
    simp only [isKept, this, and_true, implies_true]
    refine and_congr_right fun _ => ?_
    cases w.tags <;> simp
  have hv : ∀ (t : String × String), verdict false [] t = false := fun _ => rfl
  obtain ⟨st, h1, h2⟩ := manual_partial (P := P) { Import.default with profile := "manual" } rfl true true false false [] [] [] []
    (hw true) (hw true) (hw false) (hw false) es (fun w hm hk' => hne w hm ((hk w).1 hk').1 ((hk w).1 hk').2)
    (by intro w _ _ h; obtain ⟨t, _, ht⟩ := h; rw [hv] at ht; cases ht)
  refine ⟨st, h1, h2.trans ?_⟩
  have e1 : isKept true [] true [] = fun w => w.visible = true ∧ w.tags ≠ [] := by funext w; exact propext (hk w)
  have e2 : (fun w : Way => ∃ t ∈ w.tags, verdict false [] t = true) = fun _ => False := by
    funext w; simp [hv]
  rw [e1, e2]

example : importOsm { Import.default with profile := "manual" } [.node ⟨1, true, 10⟩, .node ⟨2, true, 20⟩,
      .way ⟨100, true, [1, 2], [("waterway", "river"), ("oneway", "yes")]⟩] =
    .ok ⟨[⟨1, 10, some 0⟩, ⟨2, 20, some 1⟩], false, [(1, 10), (2, 20)], [⟨0, 1, 100, (10, 20)⟩, ⟨1, 0, 100, (20, 10)⟩]⟩ := by decide +kernel

end MM.Profile
