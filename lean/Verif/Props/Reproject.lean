import Verif.Model.Reproject
import Verif.Props.Srs
import Mathlib.Tactic.FieldSimp
import Mathlib.Tactic.NormNum
import Mathlib.Tactic.Ring

/-!
# C87: points keep their place when they are read or written
-/

set_option autoImplicit false
set_option linter.unusedSectionVars false

namespace MM.Reproject

open Srs

variable {latlong : Int → Option Bool} {K E : Type}

/-- What the transformations of Boost.Geometry are relied on for: `place c k` is the place on earth with coordinates `k` in the system of
code `c`, and a transformation gives the coordinates of the same place. -/
def Faithful (place : Int → K → E) (conv : Int → Int → K → K) : Prop := ∀ a b k, place b (conv a b k) = place a k

/-! ### Points, lines, lines in several parts -/

/-- **C87.**  When a point is assigned and when it is left as it was. -/
theorem point_iff (conv : Int → Int → K → K) (r : Reprojector) (a b : SRS) (k : K) (out : Option K) :
    ((r.transform = true ∧ r.inCs = a ∧ r.outCs = b) ∧ reprojectPoint conv r a b k out = some (conv r.src r.dst k)) ∨
    ((r.transform = false ∧ a = b) ∧ reprojectPoint conv r a b k out = some k) ∨
    ((r.transform = true ∧ ¬ (r.inCs = a ∧ r.outCs = b) ∨ r.transform = false ∧ a ≠ b) ∧ reprojectPoint conv r a b k out = out) := by
  unfold reprojectPoint
  by_cases ht : r.transform = true
  · rw [if_pos ht]
    by_cases hc : r.outCs = b ∧ r.inCs = a
    · rw [if_pos hc]
      exact Or.inl ⟨⟨ht, hc.2, hc.1⟩, rfl⟩
    · rw [if_neg hc]
      exact Or.inr (Or.inr ⟨Or.inl ⟨ht, fun h => hc ⟨h.2, h.1⟩⟩, rfl⟩)
  · rw [if_neg ht]
    have hf : r.transform = false := by simpa using ht
    by_cases hc : a = b
    · rw [if_pos hc]
      exact Or.inr (Or.inl ⟨⟨hf, hc⟩, rfl⟩)
    · rw [if_neg hc]
      exact Or.inr (Or.inr ⟨Or.inr ⟨hf, hc⟩, rfl⟩)

theorem foldl_append {A B : Type} (f : A → B) (l : List A) (out : List B) :
    l.foldl (fun acc k => acc ++ [f k]) out = out ++ l.map f := by
  induction l generalizing out with
  | nil => simp
  | cons a l ih => rw [List.foldl_cons, ih]; simp

/-- **C87.**  A line is carried over point by point, in order, and added to what the output line already holds. -/
theorem line_points (conv : Int → Int → K → K) (r : Reprojector) (a b : SRS) (l : List K) (out : List (Option K)) :
    reprojectLine conv r a b l out = out ++ l.map (fun k => reprojectPoint conv r a b k none) := foldl_append _ l out

/-- **C87.**  A line in several parts is carried over part by part, in order. -/
theorem multi_lines (conv : Int → Int → K → K) (r : Reprojector) (a b : SRS) (ls : List (List K)) (out : List (List (Option K))) :
    reprojectMulti conv r a b ls out = out ++ ls.map (fun l => l.map (fun k => reprojectPoint conv r a b k none)) := by
  unfold reprojectMulti
  rw [foldl_append (fun l => reprojectLine conv r a b l []) ls out]
  simp [line_points]

/-! ### Reprojectors made from the options -/

/-- **C87.**  A reprojector is refused exactly if one of the coordinate systems is unknown. -/
theorem create_refused_iff (t : Transform) : (create t = .throws ↔ t.base.type = .invalid ∨ t.type = .invalid) ∧
    (create t ≠ .throws → create t = .ok ⟨t.base.type, t.type, t.transform, t.base.proj, t.proj⟩) := by
  unfold create dispatch
  split <;> simp_all

theorem create_ok {code tcode : Int} {type ttype : String} {t : Transform} (h : compute latlong code type tcode ttype = .ok t) :
    dispatch t = .ok (t.base.type, t.type) ∧ create t = .ok ⟨t.base.type, t.type, t.transform, code, t.code⟩ ∧
      (t.transform = false → t.type = t.base.type ∧ t.code = code) := by
  obtain ⟨h1, h2, h3, h4, h5⟩ := transform_iff h
  obtain ⟨s1, _, _⟩ := source_given h
  have hd : dispatch t = .ok (t.base.type, t.type) := by simp [dispatch, h4, h5]
  refine ⟨hd, ?_, ?_⟩
  · simp [create, hd, h2, h3, s1]
  · intro hf
    have : ¬ ((t.code, t.type) ≠ (t.base.code, t.base.type)) := fun hc => by
      have := h1.2 hc
      rw [hf] at this
      cases this
    have he := not_not.1 this
    simp only [Prod.mk.injEq] at he
    exact ⟨he.2, he.1.trans s1⟩

/-- What a fitting reprojector does: the same place in the system of the target. -/
theorem fitting {code tcode : Int} {type ttype : String} {t : Transform} (h : compute latlong code type tcode ttype = .ok t)
    {place : Int → K → E} {conv : Int → Int → K → K} (hc : Faithful place conv) (k : K) :
    ∃ k', reprojectPoint conv ⟨t.base.type, t.type, t.transform, code, t.code⟩ t.base.type t.type k none = some k' ∧
      place t.code k' = place code k ∧ (t.transform = false → k' = k) := by
  obtain ⟨_, _, h3⟩ := create_ok h
  unfold reprojectPoint
  by_cases ht : t.transform = true
  · refine ⟨conv code t.code k, by simp [ht], hc _ _ _, fun hf => ?_⟩
    rw [ht] at hf
    cases hf
  · have hf : t.transform = false := by simpa using ht
    obtain ⟨e1, e2⟩ := h3 hf
    exact ⟨k, by simp [hf, e1], by rw [e2], fun _ => rfl⟩

/-- **C87**, points of tracks: whatever systems are chosen, every point read from rows, tracks of devices or typed in is at the place it has
in the file, in the system of the target, unchanged if no other system was chosen. -/
theorem tracks_placed {code tcode : Int} {type ttype : String} {t : Transform} (h : compute latlong code type tcode ttype = .ok t)
    {place : Int → K → E} {conv : Int → Int → K → K} (hc : Faithful place conv) (k : K) :
    ∃ k', trackPoint conv t k = .ok (t.type, some k') ∧ place t.code k' = place code k ∧ (t.transform = false → k' = k) := by
  obtain ⟨h1, h2, _⟩ := create_ok h
  obtain ⟨k', e1, e2, e3⟩ := fitting h hc k
  exact ⟨k', by simp [trackPoint, h1, h2, e1], e2, e3⟩

/-- **C87**, tracks given as lines: as many lines and points as in the file, in the same order, each at its place. -/
theorem lines_placed {code tcode : Int} {type ttype : String} {t : Transform} (h : compute latlong code type tcode ttype = .ok t)
    {place : Int → K → E} {conv : Int → Int → K → K} (hc : Faithful place conv) (ls : List (List K)) :
    ∃ ls' : List (List K), trackLines conv t ls = .ok (t.type, ls'.map (·.map some)) ∧
      ls'.map (·.map (place t.code)) = ls.map (·.map (place code)) := by
  obtain ⟨h1, h2, _⟩ := create_ok h
  have hf := fun k => fitting h hc k
  choose f e1 e2 _ using hf
  refine ⟨ls.map (·.map f), ?_, ?_⟩
  · simp only [trackLines, h1, h2, Outcome.bind_ok, Outcome.map_ok, multi_lines, List.nil_append, e1, List.map_map]
    simp [Function.comp_def]
  · simp [Function.comp_def, e2]

/-- **C87**, nodes of OpenStreetMap files: they are at their place exactly if the source is geographic; if it is not, no node is given any
coordinates at all.  Missing: the other sources (`osm_fails`). -/
theorem osm_partial {code tcode : Int} {type ttype : String} {t : Transform} (h : compute latlong code type tcode ttype = .ok t)
    {place : Int → K → E} {conv : Int → Int → K → K} (hc : Faithful place conv) (k : K) :
    (t.base.type = .geographic → ∃ k', osmNode conv t k = .ok (some k') ∧ place t.code k' = place code k) ∧
    (t.base.type ≠ .geographic → osmNode conv t k = .ok none) := by
  obtain ⟨_, h2, h3⟩ := create_ok h
  obtain ⟨k', e1, e2, _⟩ := fitting h hc k
  refine ⟨fun hg => ⟨k', ?_, e2⟩, fun hg => ?_⟩
  · rw [hg] at e1
    simp [osmNode, h2, hg, e1]
  · simp only [osmNode, h2, Outcome.map_ok, Outcome.ok.injEq]
    unfold reprojectPoint
    by_cases ht : t.transform = true
    · simp [ht, hg]
    · have hf : t.transform = false := by simpa using ht
      have : SRS.geographic ≠ t.type := by rw [(h3 hf).1]; exact fun e => hg e.symm
      simp [hf, this]

/-- **C87**, nodes of the other networks: they are at their place exactly if source and target are of the same type; if they are not, no node is
given any coordinates at all.  Missing: changes of type (`text_fails`). -/
theorem text_partial {code tcode : Int} {type ttype : String} {t : Transform} (h : compute latlong code type tcode ttype = .ok t)
    {place : Int → K → E} {conv : Int → Int → K → K} (hc : Faithful place conv) (k : K) :
    (t.base.type = t.type → ∃ k', textNode conv t k = .ok (some k') ∧ place t.code k' = place code k) ∧
    (t.base.type ≠ t.type → textNode conv t k = .ok none) := by
  obtain ⟨_, h2, h3⟩ := create_ok h
  obtain ⟨k', e1, e2, _⟩ := fitting h hc k
  refine ⟨fun hg => ⟨k', ?_, e2⟩, fun hg => ?_⟩
  · rw [hg] at e1
    simp [textNode, h2, hg, e1]
  · simp only [textNode, h2, Outcome.map_ok, Outcome.ok.injEq]
    unfold reprojectPoint
    by_cases ht : t.transform = true
    · simp [ht, hg]
    · have hf : t.transform = false := by simpa using ht
      exact absurd (h3 hf).1.symm hg

/-- **C87**, ground truth from lists of edges: the lines are at their places exactly if the type of the source given for the tracks is that of the
network; if it is not, no point has coordinates.  Missing: other types (`list_fails`). -/
theorem list_partial {code tcode : Int} {type ttype : String} {t : Transform} (h : compute latlong code type tcode ttype = .ok t)
    {place : Int → K → E} {conv : Int → Int → K → K} (hc : Faithful place conv) (net : SRS) (ls : List (List K)) :
    (t.base.type = net → ∃ ls' : List (List K), listLines conv net t ls = .ok (t.type, ls'.map (·.map some)) ∧
      ls'.map (·.map (place t.code)) = ls.map (·.map (place code))) ∧
    (t.base.type ≠ net → listLines conv net t ls = .ok (t.type, ls.map (·.map (fun _ => none)))) := by
  refine ⟨?_, fun hg => ?_⟩
  · rintro rfl
    obtain ⟨h1, h2, _⟩ := create_ok h
    obtain ⟨ls', e1, e2⟩ := lines_placed h hc ls
    refine ⟨ls', ?_, e2⟩
    simp only [trackLines, h1, h2, Outcome.bind_ok, Outcome.map_ok] at e1
    simpa only [listLines, h1, h2, Outcome.bind_ok, Outcome.map_ok] using e1
  · obtain ⟨h1, h2, h3⟩ := create_ok h
    have : ∀ k, reprojectPoint conv ⟨t.base.type, t.type, t.transform, code, t.code⟩ net t.type k none = none := by
      intro k
      unfold reprojectPoint
      by_cases ht : t.transform = true
      · simp [ht, hg]
      · have hf : t.transform = false := by simpa using ht
        have hn : net ≠ t.type := by rw [(h3 hf).1]; exact fun e => hg e.symm
        simp [hf, hn]
    simp [listLines, h1, h2, multi_lines, this]

/-- **C87**, points written to OpenStreetMap files: when they are given coordinates, and which.  They are at their place if the network is in
longitudes and latitudes of code 4326, or if it is not geographic, was not reprojected and has another code.  Missing: all others
(`export_fails`, `export_wrong_fails`). -/
theorem export_partial {code tcode : Int} {type ttype : String} {t : Transform} (h : compute latlong code type tcode ttype = .ok t)
    {place : Int → K → E} {conv : Int → Int → K → K} (hc : Faithful place conv) (k : K) :
    (t.type = .geographic → osmPoint conv t k = .ok (some k)) ∧
    (t.type ≠ .geographic → code ≠ 4326 → osmPoint conv t k = .ok (some (conv code 4326 k))) ∧
    (t.type ≠ .geographic → code = 4326 → osmPoint conv t k = .ok none) ∧
    ((t.type = .geographic ∧ t.code = 4326 ∨ t.type ≠ .geographic ∧ code ≠ 4326 ∧ t.code = code) →
      ∃ k', osmPoint conv t k = .ok (some k') ∧ place 4326 k' = place t.code k) := by
  obtain ⟨_, _, _, _, hv⟩ := transform_iff h
  obtain ⟨s1, _, _⟩ := source_given h
  have a1 : t.type = .geographic → osmPoint conv t k = .ok (some k) := by
    intro hg
    simp [osmPoint, next, hg, create, dispatch, mk, mkSrs, reprojectPoint]
  have a2 : t.type ≠ .geographic → code ≠ 4326 → osmPoint conv t k = .ok (some (conv code 4326 k)) := by
    intro hg hne
    simp [osmPoint, next, hg, hne, hv, s1, create, dispatch, mk, mkSrs, reprojectPoint]
  have a3 : t.type ≠ .geographic → code = 4326 → osmPoint conv t k = .ok none := by
    intro hg he
    simp [osmPoint, next, hg, s1, he, create, dispatch, mk, mkSrs, reprojectPoint]
  refine ⟨a1, a2, a3, ?_⟩
  rintro (⟨hg, he⟩ | ⟨hg, hne, he⟩)
  · exact ⟨k, a1 hg, by rw [he]⟩
  · exact ⟨_, a2 hg hne, by rw [hc, he]⟩

/-! ### What fails -/

/-- Coordinates for the examples: in code 4326 the place itself, in all others a hundred thousand times as much. -/
def scale (c : Int) : Rat := if c = 4326 then 1 else 100000

/-- The place of a coordinate. -/
def placeOf (c : Int) (k : Rat) : Rat := k / scale c

/-- The transformation between two codes. -/
def convert (a b : Int) (k : Rat) : Rat := k / scale a * scale b

theorem scale_ne (c : Int) : scale c ≠ 0 := by
  unfold scale
  split <;> norm_num

theorem convert_faithful : Faithful placeOf convert := by
  intro a b k
  have := scale_ne b
  unfold placeOf convert
  field_simp

/-- 4326 transformed to 3857. -/
def toMercator : Transform := ⟨⟨4326, .geographic, 4326⟩, 3857, .cartesian, 3857, true⟩

/-- Tracks in 4326, matched in 3857. -/
example : compute known 4326 "" 3857 "" = .ok toMercator ∧ trackPoint convert toMercator 7 = .ok (.cartesian, some 700000) ∧
    osmNode convert toMercator 7 = .ok (some 700000) :=
  ⟨by decide, by decide +kernel, by decide +kernel⟩

example : trackLines convert toMercator [[7, 8], [9]] = .ok (.cartesian, [[some 700000, some 800000], [some 900000]]) := by decide +kernel

/-- **C87 fails** for OpenStreetMap files: with `--srs-type spherical-equatorial`, which the help recommends for faster computation, or with
`--srs 3857`, no node is given coordinates. -/
theorem osm_fails :
    (∃ t, compute known 4326 "spherical-equatorial" (-1) "" = .ok t ∧ ∀ k, osmNode convert t k = .ok none) ∧
    (∃ t, compute known 3857 "" (-1) "" = .ok t ∧ ∀ k, osmNode convert t k = .ok none) :=
  ⟨⟨⟨⟨4326, .spherical, 4326⟩, 4326, .spherical, 4326, false⟩, by decide, fun _ => rfl⟩,
   ⟨⟨⟨3857, .cartesian, 3857⟩, 3857, .cartesian, 3857, false⟩, by decide, fun _ => rfl⟩⟩

/-- The same is possible as a target. -/
example : ∃ t, compute known 4326 "" (-1) "spherical-equatorial" = .ok t ∧ osmNode convert t 7 = .ok (some 7) :=
  ⟨⟨⟨4326, .geographic, 4326⟩, 4326, .spherical, 4326, true⟩, by decide, by decide +kernel⟩

/-- **C87 fails** for networks in other formats: read as 4326 with the recommended target 3857, no node is given coordinates. -/
theorem text_fails : compute known 4326 "" 3857 "" = .ok toMercator ∧ ∀ k, textNode convert toMercator k = .ok none :=
  ⟨by decide, fun _ => rfl⟩

example : ∃ t, compute known 25832 "" 3857 "" = .ok t ∧ t.base.type = t.type ∧ t.transform = true ∧ textNode convert t 7 = .ok (some 7) :=
  ⟨⟨⟨25832, .cartesian, 25832⟩, 3857, .cartesian, 3857, true⟩, by decide, rfl, rfl, by decide +kernel⟩

/-- **C87 fails** for lists of edges: tracks are given in 4326 and matched in 3857 on a network in 3857; the lines of the network get no
coordinates. -/
theorem list_fails : compute known 4326 "" 3857 "" = .ok toMercator ∧
    listLines convert .cartesian toMercator [[1, 2], [3]] = .ok (.cartesian, [[none, none], [none]]) :=
  ⟨by decide, by decide +kernel⟩

/-- **C87 fails** for the export: a network read from 4326 and transformed to 3857 is written without coordinates. -/
theorem export_fails : compute known 4326 "" 3857 "" = .ok toMercator ∧ ∀ k, osmPoint convert toMercator k = .ok none :=
  ⟨by decide, fun _ => rfl⟩

/-- **C87 fails** for the export: points are written at other places, from the code of the source instead of that of the network, or
unconverted between geographic systems. -/
theorem export_wrong_fails (conv : Int → Int → K → K) :
    (∃ t, compute known 25832 "" 3857 "" = .ok t ∧ ∀ k, osmPoint conv t k = .ok (some (conv 25832 4326 k))) ∧
    (∃ t, compute known 4258 "" (-1) "" = .ok t ∧ ∀ k, osmPoint conv t k = .ok (some k)) :=
  ⟨⟨⟨⟨25832, .cartesian, 25832⟩, 3857, .cartesian, 3857, true⟩, by decide, fun _ => rfl⟩,
   ⟨⟨⟨4258, .geographic, 4258⟩, 4258, .geographic, 4258, false⟩, by decide, fun _ => rfl⟩⟩

example : ∃ t, compute known 25832 "" (-1) "" = .ok t ∧ t.type ≠ .geographic ∧ osmPoint convert t 700000 = .ok (some 7) :=
  ⟨⟨⟨25832, .cartesian, 25832⟩, 25832, .cartesian, 25832, false⟩, by decide, by decide, by decide +kernel⟩

/-! ### Matching and comparing -/

/-- **C87**, what is matched or compared: tracks of another type of coordinate system are refused.  Missing: other systems of the same type
(`same_type_fails`). -/
theorem accept_partial (a b : SRS) : (accept a b = .ok () ↔ a = b) ∧ (a ≠ b → accept a b = .throws) := by
  unfold accept
  by_cases h : a = b
  · simp [h]
  · simp [h]

/-- Another unit of length for 25832. -/
def unit (c : Int) : Rat := if c = 25832 then 2 else 1

theorem unit_ne (c : Int) : unit c ≠ 0 := by
  unfold unit
  split <;> norm_num

/-- **C87 fails**: tracks in 25832 are matched against a network in 3857 as if they were in the same system; the same coordinates are
different places. -/
theorem same_type_fails : ∃ n t, computeSrs known 3857 "" = .ok n ∧ compute known 25832 "" (-1) "" = .ok t ∧
    accept n.type t.type = .ok () ∧ n.code ≠ t.code ∧
    ∃ (place : Int → Rat → Rat) (conv : Int → Int → Rat → Rat), Faithful place conv ∧
      ∀ k, k ≠ 0 → trackPoint conv t k = .ok (t.type, some k) ∧ place n.code k ≠ place t.code k := by
  refine ⟨⟨3857, .cartesian, 3857⟩, ⟨⟨25832, .cartesian, 25832⟩, 25832, .cartesian, 25832, false⟩, by decide, by decide, by decide, by decide,
    fun c k => k / unit c, fun a b k => k / unit a * unit b, ?_, ?_⟩
  · intro a b k
    have := unit_ne b
    show k / unit a * unit b / unit b = k / unit a
    field_simp
  · intro k hk
    refine ⟨rfl, ?_⟩
    show k / unit 3857 ≠ k / unit 25832
    have h1 : unit 3857 = 1 := by decide +kernel
    have h2 : unit 25832 = 2 := by decide +kernel
    rw [h1, h2]
    intro h
    apply hk
    have h' : k / 1 * 2 = k / 2 * 2 := by rw [h]
    rw [div_one, div_mul_cancel₀ k (by norm_num)] at h'
    have := congrArg (· - k) h'
    simp only [sub_self] at this
    rw [← this]
    ring

end MM.Reproject
