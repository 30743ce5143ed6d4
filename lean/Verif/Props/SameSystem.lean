import Verif.Model.SameSystem
import Verif.Props.Reproject

/-! # Property theorems C119 (a network is matched in the coordinate system it was prepared in) -/

set_option autoImplicit false
set_option linter.unusedSectionVars false

namespace MM.SameSystem

open MM.Srs MM.Reproject

variable {latlong : Int → Option Bool} {K E : Type}

theorem name_type {s : SRS} (h : s ≠ .invalid) : typeOfName (nameOf s) = s := by
  cases s
  · exact absurd rfl h
  · decide
  · decide
  · decide

/-- The kind a network is opened as: the one given, else the one of the code. -/
theorem open_given {c : Int} (hc : 0 ≤ c) {ty : String} {s : SRS} (hs : s ≠ .invalid)
    (h : ty = nameOf s ∨ typeOfName ty = .invalid ∧ typeOfProj latlong c = .ok s) : openNetwork latlong ⟨c, ty⟩ = .ok s := by
  have h0 : ¬ c < 0 := by omega
  rcases h with rfl | ⟨h1, h2⟩
  · simp [openNetwork, computeSrs, h0, name_type hs, hs]
  · simp [openNetwork, computeSrs, h0, h1, h2, hs]

/-- The options of the tracks lead to the system `c`, `s`. -/
def Leads (latlong : Int → Option Bool) (q : Args) (c : Int) (s : SRS) : Prop :=
  ∃ u, compute latlong q.code q.type q.tcode q.ttype = .ok u ∧ u.code = c ∧ u.type = s

/-- Naming code and type of a system as the target leads to it, from every known source. -/
theorem leads_named {q : Args} {b : Srs} (hb : computeSrs latlong q.code q.type = .ok b) {c : Int} (hc : 0 ≤ c) {s : SRS} (hs : s ≠ .invalid)
    (h1 : q.tcode = c) (h2 : q.ttype = nameOf s) : Leads latlong q c s := by
  have h0 : ¬ c < 0 := by omega
  refine ⟨mk b c s c, ?_, rfl, rfl⟩
  simp [compute, hb, target, h1, h2, name_type hs, h0, hs, finish]

theorem code_nonneg {a : Args} {t : Transform} (h : compute latlong a.code a.type a.tcode a.ttype = .ok t) : 0 ≤ t.code := by
  obtain ⟨s1, s2, _⟩ := source_given h
  obtain ⟨g1, _, _, g4⟩ := target_given h
  by_cases hp : 0 ≤ a.tcode
  · rw [g1 hp]; exact hp
  · have hn : a.tcode < 0 := by omega
    obtain ⟨d1, d2, d3⟩ := target_default h hn
    cases ht : typeOfName a.ttype with
    | invalid => rw [(g4 hn ht).2.1, s1]; exact s2
    | geographic => rw [d1 ht]; decide
    | spherical => rw [d3 ht, s1]; exact s2
    | cartesian => rw [d2 ht]; decide

/-- **C119, one system.**  A network read from geographic coordinates is prepared for any target; the options of `--match` name that target
for the network (code and type, or the code alone if the type is the one of the code) and lead to it for the tracks.  Then it is
opened as the kind it was prepared as, tracks are matched, and node and point have the same coordinates if and only if they are at the same place.
Missing from the full property: options that name another system (`not_stored_fails`, `other_refused_fails`); networks read from other
coordinates (C87). -/
theorem same_system_partial {a q : Args} {n : NetArgs} {t : Transform}
    (ha : compute latlong a.code a.type a.tcode a.ttype = .ok t) (hg : t.base.type = .geographic)
    (hn : n.code = t.code) (hnt : n.type = nameOf t.type ∨ typeOfName n.type = .invalid ∧ typeOfProj latlong t.code = .ok t.type)
    (hq : Leads latlong q t.code t.type) {place : Int → K → E} {conv : Int → Int → K → K} (hc : Faithful place conv) (node point : K) :
    ∃ x y, matched latlong conv a n q node point = .ok (some x, some y) ∧
      prepareNode latlong conv a node = .ok (t.type, some x) ∧ openNetwork latlong n = .ok t.type ∧
      place t.code x = place a.code node ∧ place t.code y = place q.code point ∧
      (Function.Injective (place t.code) → (x = y ↔ place a.code node = place q.code point)) := by
  obtain ⟨_, _, _, _, hv⟩ := transform_iff ha
  obtain ⟨x, hx, px⟩ := (osm_partial ha hc node).1 hg
  obtain ⟨u, hu, hu1, hu2⟩ := hq
  obtain ⟨y, hy, py, _⟩ := tracks_placed hu hc point
  have ho : openNetwork latlong n = .ok t.type := by
    have := open_given (latlong := latlong) (code_nonneg ha) (ty := n.type) hv hnt
    rw [← hn] at this
    exact this
  rw [hu1] at py
  rw [hu2] at hy
  refine ⟨x, y, ?_, by simp [prepareNode, ha, hv, hx], ho, px, py, fun hi => ?_⟩
  · simp [matched, prepareNode, readPoint, ha, hv, hx, ho, hu, hy, accept]
  · rw [← px, ← py]
    exact hi.eq_iff.symm

/-- Tracks that are already in the system of the network need no target. -/
theorem leads_plain {q : Args} {b : Srs} (hb : computeSrs latlong q.code q.type = .ok b) (h1 : q.tcode < 0) (h2 : typeOfName q.ttype = .invalid) :
    Leads latlong q b.code b.type := by
  have h3 : ¬ 0 ≤ q.tcode := by omega
  obtain ⟨_, e1, e2, e3, _⟩ := computeSrs_ok hb
  refine ⟨mk b b.code b.type b.proj, ?_, rfl, rfl⟩
  simp [compute, hb, target, h2, h3, finish]

/-- Prepared in 3857; tracks in 4326 are transformed, those in 3857 are not. -/
example : Leads known ⟨4326, "", 3857, "cartesian"⟩ 3857 .cartesian ∧ Leads known ⟨3857, "", -1, ""⟩ 3857 .cartesian :=
  ⟨leads_named (b := ⟨4326, .geographic, 4326⟩) (by decide) (by decide) (by decide) rfl rfl,
   leads_plain (b := ⟨3857, .cartesian, 3857⟩) (by decide) (by decide) (by decide)⟩

/-- Prepared in 3857, opened in 3857, tracks in 4326 transformed to 3857: node and point at the same place. -/
example : ∃ t, compute known 4326 "" 3857 "" = .ok t ∧ t.base.type = .geographic ∧ typeOfProj known t.code = .ok t.type ∧
    matched known convert ⟨4326, "", 3857, ""⟩ ⟨3857, ""⟩ ⟨4326, "", 3857, ""⟩ 7 7 = .ok (some 700000, some 700000) :=
  ⟨toMercator, by decide, rfl, by decide, by decide +kernel⟩

/-- **C119, without options.**  Neither run is given options about coordinate systems: nodes and points keep their coordinates and are
matched as geographic ones, if the code 4326 is known as such. -/
theorem without_options (h : latlong 4326 = some true) (conv : Int → Int → K → K) (node point : K) :
    matched latlong conv .none .none .none node point = .ok (some node, some point) ∧ openNetwork latlong .none = .ok .geographic := by
  have h1 : typeOfName "" = .invalid := by decide
  constructor
  · simp [matched, prepareNode, openNetwork, readPoint, Args.none, NetArgs.none, compute, computeSrs, h1, typeOfProj, h, target, finish, mk,
      osmNode, trackPoint, create, dispatch, reprojectPoint, accept]
  · simp [openNetwork, NetArgs.none, computeSrs, h1, typeOfProj, h]

example : known 4326 = some true ∧ matched known convert .none .none .none 7 8 = .ok (some 7, some 8) :=
  ⟨by decide, (without_options (latlong := known) (by decide) convert 7 8).1⟩

/-- **C119 fails**: the system of the network is not kept with it.  A network prepared in 3857 is opened as a geographic one if `--match` is
not told again; tracks in 4326 are then matched against it without complaint, with coordinates that are not those of the node at the same
place. -/
theorem not_stored_fails :
    ∃ t, compute known 4326 "" 3857 "" = .ok t ∧ prepareNode known convert ⟨4326, "", 3857, ""⟩ 7 = .ok (.cartesian, some 700000) ∧
      openNetwork known .none = .ok .geographic ∧
      matched known convert ⟨4326, "", 3857, ""⟩ .none .none 7 7 = .ok (some 700000, some 7) :=
  ⟨toMercator, by decide, by decide +kernel, by decide, by decide +kernel⟩

/-- **C119 fails**: tracks that are transformed to the system the network was prepared in are refused if the network is opened without
options. -/
theorem other_refused_fails :
    matched known convert ⟨4326, "", 3857, ""⟩ .none ⟨4326, "", 3857, ""⟩ 7 7 = .throws := by decide +kernel

/-- A network that is opened as another kind than the tracks are is never matched. -/
theorem other_kind {n : NetArgs} {s : SRS} (hn : openNetwork latlong n = .ok s) {q : Args} {u : Transform}
    (hu : compute latlong q.code q.type q.tcode q.ttype = .ok u) (hne : s ≠ u.type) (a : Args) (conv : Int → Int → K → K) (node point : K) :
    ∀ r, matched latlong conv a n q node point ≠ .ok r := by
  intro r h
  obtain ⟨h1, h2, _⟩ := create_ok hu
  unfold matched at h
  cases hp : prepareNode latlong conv a node with
  | ok x => simp [hp, hn, readPoint, hu, trackPoint, h1, h2, accept, hne] at h
  | throws => simp [hp] at h
  | ub => simp [hp] at h

example : openNetwork known .none = .ok .geographic ∧ compute known 4326 "" 3857 "" = .ok toMercator ∧ SRS.geographic ≠ toMercator.type :=
  ⟨by decide, by decide, by decide⟩

end MM.SameSystem
