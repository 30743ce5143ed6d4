import Verif.Model.Srs
import Mathlib.Tactic.SplitIfs
import Mathlib.Data.Int.Order.Basic

/-!
# C50: choice of coordinate systems
-/

set_option autoImplicit false
set_option linter.unusedSectionVars false

namespace MM.Srs

variable {latlong : Int → Option Bool}

theorem typeOfProj_valid {c : Int} {t : SRS} (h : typeOfProj latlong c = .ok t) :
    t ≠ .invalid ∧ (t = .geographic ↔ latlong c = some true) := by
  unfold typeOfProj at h
  split at h
  · cases h
  · rename_i hl
    cases h
    exact ⟨by decide, by simp [hl]⟩
  · rename_i hl
    cases h
    exact ⟨by decide, by simp [hl]⟩

theorem computeSrs_ok {code : Int} {type : String} {b : Srs} (h : computeSrs latlong code type = .ok b) :
    0 ≤ code ∧ b.code = code ∧ b.proj = code ∧ b.type ≠ .invalid ∧ (typeOfName type ≠ .invalid → b.type = typeOfName type) := by
  unfold computeSrs at h
  split_ifs at h with h1 h2
  · cases ht : typeOfProj latlong code with
    | ok t =>
      rw [ht] at h
      cases h
      exact ⟨by omega, rfl, rfl, (typeOfProj_valid ht).1, fun hn => absurd h2 hn⟩
    | throws => rw [ht] at h; cases h
    | ub => rw [ht] at h; cases h
  · cases h
    exact ⟨by omega, rfl, rfl, h2, fun _ => rfl⟩

/-- The target before the check for validity. -/
theorem compute_ok {code tcode : Int} {type ttype : String} {t : Transform} (h : compute latlong code type tcode ttype = .ok t) :
    ∃ b p, computeSrs latlong code type = .ok b ∧ target latlong code tcode (typeOfName ttype) = .ok p ∧ t = finish b p := by
  unfold compute at h
  cases hb : computeSrs latlong code type with
  | ok b =>
    rw [hb] at h
    simp only [Outcome.bind_ok] at h
    cases hp : target latlong code tcode (typeOfName ttype) with
    | ok p =>
      rw [hp] at h
      simp only [Outcome.map_ok, Outcome.ok.injEq] at h
      exact ⟨b, p, rfl, rfl, h.symm⟩
    | throws => rw [hp] at h; cases h
    | ub => rw [hp] at h; cases h
  | throws => rw [hb] at h; cases h
  | ub => rw [hb] at h; cases h

theorem finish_spec (b : Srs) (p : Int × SRS) (hb : b.proj = b.code) (hv : b.type ≠ .invalid) :
    (finish b p).base = b ∧ (finish b p).proj = (finish b p).code ∧ (finish b p).type ≠ .invalid ∧
      ((finish b p).transform = true ↔ ((finish b p).code, (finish b p).type) ≠ (b.code, b.type)) := by
  unfold finish mk
  split_ifs with h
  · refine ⟨rfl, hb, hv, by simp⟩
  · refine ⟨rfl, rfl, h, ?_⟩
    simp only [Bool.not_eq_true', Bool.and_eq_false_iff, decide_eq_false_iff_not, ne_eq, Prod.mk.injEq, not_and_or, hb]
    constructor
    · rintro (h | h)
      · exact Or.inl (fun e => h e.symm)
      · exact Or.inr (fun e => h e.symm)
    · rintro (h | h)
      · exact Or.inl (fun e => h e.symm)
      · exact Or.inr (fun e => h e.symm)

/-- **C50.**  The chosen transformation reprojects exactly when the target differs from the source, in code or in type; source and
target are valid, and the codes used by the projections are those of source and target. -/
theorem transform_iff {code tcode : Int} {type ttype : String} {t : Transform} (h : compute latlong code type tcode ttype = .ok t) :
    (t.transform = true ↔ (t.code, t.type) ≠ (t.base.code, t.base.type)) ∧ t.base.proj = t.base.code ∧ t.proj = t.code ∧
      t.base.type ≠ .invalid ∧ t.type ≠ .invalid := by
  obtain ⟨b, p, hb, _, rfl⟩ := compute_ok h
  obtain ⟨_, h2, h3, h4, _⟩ := computeSrs_ok hb
  have := finish_spec b p (h3.trans h2.symm) h4
  obtain ⟨e1, e2, e3, e4⟩ := this
  rw [e1]
  exact ⟨e4, h3.trans h2.symm, e2, h4, e3⟩

/-- **C50.**  The source is the one that was asked for. -/
theorem source_given {code tcode : Int} {type ttype : String} {t : Transform} (h : compute latlong code type tcode ttype = .ok t) :
    t.base.code = code ∧ 0 ≤ code ∧ (typeOfName type ≠ .invalid → t.base.type = typeOfName type) := by
  obtain ⟨b, p, hb, _, rfl⟩ := compute_ok h
  obtain ⟨h1, h2, h3, h4, h5⟩ := computeSrs_ok hb
  rw [(finish_spec b p (h3.trans h2.symm) h4).1]
  exact ⟨h2, h1, h5⟩

/-- **C50.**  The target is the one that was asked for: a given code, a given type; if only a code is given its own type; if none is given
the source. -/
theorem target_given {code tcode : Int} {type ttype : String} {t : Transform} (h : compute latlong code type tcode ttype = .ok t) :
    (0 ≤ tcode → t.code = tcode) ∧ (typeOfName ttype ≠ .invalid → t.type = typeOfName ttype) ∧
      (0 ≤ tcode → typeOfName ttype = .invalid → (t.type = .geographic ↔ latlong tcode = some true)) ∧
      (tcode < 0 → typeOfName ttype = .invalid → t.transform = false ∧ t.code = t.base.code ∧ t.type = t.base.type) := by
  obtain ⟨b, p, hb, hp, rfl⟩ := compute_ok h
  obtain ⟨h1, h2, h3, h4, h5⟩ := computeSrs_ok hb
  unfold target at hp
  split_ifs at hp with c1 c2 c3 c4
  · cases hp
    have hv : typeOfName ttype ≠ .invalid := by rw [c1.1]; decide
    simp only [finish, mk, if_neg hv]
    exact ⟨fun h => absurd h (by omega), fun _ => trivial, fun h => absurd h (by omega), fun _ h => absurd h hv⟩
  · cases hp
    have hv : typeOfName ttype ≠ .invalid := by rw [c2.1]; decide
    simp only [finish, mk, if_neg hv]
    exact ⟨fun h => absurd h (by omega), fun _ => trivial, fun h => absurd h (by omega), fun _ h => absurd h hv⟩
  · cases hp
    simp only [finish, mk, if_neg c3.1]
    exact ⟨fun h => absurd h (by omega), fun _ => trivial, fun h => absurd h (by omega), fun _ h => absurd h c3.1⟩
  · cases ht : typeOfProj latlong tcode with
    | ok ty =>
      rw [ht] at hp
      cases hp
      obtain ⟨hv, hg⟩ := typeOfProj_valid ht
      simp only [finish, mk, if_neg hv]
      exact ⟨fun _ => trivial, fun h => absurd c4.1 h, fun _ _ => hg, fun h => absurd c4.2 (by omega)⟩
    | throws => rw [ht] at hp; cases hp
    | ub => rw [ht] at hp; cases hp
  · cases hp
    by_cases hv : typeOfName ttype = .invalid
    · have hneg : tcode < 0 := by
        by_contra hc
        exact c4 ⟨hv, by omega⟩
      simp only [finish, mk, if_pos hv]
      exact ⟨fun h => absurd h (by omega), fun h => absurd hv h, fun h => absurd h (by omega), fun _ _ => by simp⟩
    · simp only [finish, mk, if_neg hv]
      have hpos : 0 ≤ tcode := by
        by_contra hc
        exact c3 ⟨hv, by omega⟩
      exact ⟨fun _ => trivial, fun _ => trivial, fun _ h => absurd h hv, fun h => absurd hpos (by omega)⟩

/-- **C50.**  If only the type of the target is given, the usual system of that type is taken: 4326 for geographic, 3857 for
cartesian coordinates; for spherical coordinates the code of the source is kept. -/
theorem target_default {code tcode : Int} {type ttype : String} {t : Transform} (h : compute latlong code type tcode ttype = .ok t)
    (hn : tcode < 0) :
    (typeOfName ttype = .geographic → t.code = 4326) ∧ (typeOfName ttype = .cartesian → t.code = 3857) ∧
      (typeOfName ttype = .spherical → t.code = t.base.code) := by
  obtain ⟨b, p, hb, hp, rfl⟩ := compute_ok h
  obtain ⟨h1, h2, h3, h4, h5⟩ := computeSrs_ok hb
  refine ⟨fun ht => ?_, fun ht => ?_, fun ht => ?_⟩ <;>
  · rw [ht] at hp
    simp [target, hn] at hp
    subst hp
    simp [finish, mk, h2]

/-- **C50.**  A negative source is refused, any other source whose type is given or known works if the target is known. -/
theorem refused (code tcode : Int) (type ttype : String) :
    (code < 0 → compute latlong code type tcode ttype = .throws) ∧
      (0 ≤ code → (typeOfName type ≠ .invalid ∨ latlong code ≠ none) → (typeOfName ttype ≠ .invalid ∨ tcode < 0 ∨ latlong tcode ≠ none) →
        ∃ t, compute latlong code type tcode ttype = .ok t) := by
  constructor
  · intro h
    simp [compute, computeSrs, h]
  · intro h hb ht
    have hb' : ∃ b, computeSrs latlong code type = .ok b := by
      unfold computeSrs typeOfProj
      rw [if_neg (by omega)]
      split_ifs with hi
      · rcases hb with hb | hb
        · exact absurd hi hb
        · cases hl : latlong code with
          | none => exact absurd hl hb
          | some g => cases g <;> exact ⟨_, rfl⟩
      · exact ⟨_, rfl⟩
    have ht' : ∃ p, target latlong code tcode (typeOfName ttype) = .ok p := by
      unfold target typeOfProj
      split_ifs with c1 c2 c3 c4
      · exact ⟨_, rfl⟩
      · exact ⟨_, rfl⟩
      · exact ⟨_, rfl⟩
      · rcases ht with ht | ht | ht
        · exact absurd c4.1 ht
        · omega
        · cases hl : latlong tcode with
          | none => exact absurd hl ht
          | some g => cases g <;> exact ⟨_, rfl⟩
      · exact ⟨_, rfl⟩
    obtain ⟨b, hb'⟩ := hb'
    obtain ⟨p, hp'⟩ := ht'
    exact ⟨finish b p, by simp [compute, hb', hp']⟩

/-! ### A second transformation -/

/-- What chaining is for: the second transformation starts where the first ends, ends in the wanted system, and reprojects exactly if
they differ. -/
def Chained (t n : Transform) (code : Int) (type : SRS) : Prop :=
  (n.base.code, n.base.type) = (t.code, t.type) ∧ (n.code, n.type) = (code, type) ∧ (n.transform = true ↔ (t.code, t.type) ≠ (code, type))

/-- **C50**, chaining: if the first transformation keeps the code and the wanted system has another code exactly when it has another type.
Missing: all others (`next_fails`, `next_back_fails`). -/
theorem next_partial {code tcode : Int} {type ttype : String} {t : Transform} (h : compute latlong code type tcode ttype = .ok t)
    (hkeep : t.code = t.base.code) (c : Int) (ty : SRS) (hd : c = t.code ↔ ty = t.type) : Chained t (next t c ty) c ty := by
  obtain ⟨_, _, _, _, hv⟩ := transform_iff h
  unfold next Chained
  by_cases hc : c = t.code
  · have hty := hd.1 hc
    rw [if_neg (by rintro ⟨_, hne, _⟩; exact hne (by rw [hc, hkeep]))]
    refine ⟨?_, rfl, ?_⟩
    · simp [mk, mkSrs, hc, hty]
    · simp [mk, mkSrs, hc, hty]
  · have hty : ty ≠ t.type := fun e => hc (hd.2 e)
    rw [if_pos ⟨hv, by rw [← hkeep]; exact fun e => hc e.symm, fun e => hty e.symm⟩]
    refine ⟨?_, rfl, ?_⟩
    · simp [mk, mkSrs, hkeep]
    · have : t.base.code ≠ c := by rw [← hkeep]; exact fun e => hc e.symm
      simp [mk, mkSrs, this, hkeep]

/-- **C50 fails** for every way back: a second transformation to the code from which the first one starts never reprojects, whatever
the first one did. -/
theorem next_back_fails (t : Transform) (ty : SRS) (hdiff : (t.code, t.type) ≠ (t.base.code, ty)) :
    (next t t.base.code ty).transform = false ∧ ¬ Chained t (next t t.base.code ty) t.base.code ty := by
  have h : (next t t.base.code ty).transform = false := by simp [next, mk, mkSrs]
  refine ⟨h, ?_⟩
  rintro ⟨_, _, h3⟩
  rw [h] at h3
  exact absurd (h3.2 hdiff) (by simp)

/-- The codes of two geographic and three cartesian systems. -/
def known : Int → Option Bool
  | 4326 => some true
  | 4258 => some true
  | 3857 => some false
  | 25832 => some false
  | _ => none

/-- **C50 fails** for the export of OpenStreetMap files (prepare.hpp 197-199): a network read with longitudes and latitudes and matched in
web mercator coordinates is not reprojected (and then written without coordinates, C87 `export_fails`). -/
example : ∃ t, compute known 4326 "" 3857 "" = .ok t ∧ t.transform = true ∧ (next t 4326 .geographic).transform = false :=
  ⟨⟨⟨4326, .geographic, 4326⟩, 3857, .cartesian, 3857, true⟩, by decide, rfl, by decide⟩

/-- **C50 fails**: the second transformation starts from the wrong system, or does not reproject between systems of the same type. -/
theorem next_fails :
    (∃ t, compute known 25832 "" 3857 "" = .ok t ∧ (next t 4326 .geographic).base.code ≠ t.code) ∧
    (∃ t, compute known 25832 "" (-1) "" = .ok t ∧ (next t 3857 .cartesian).transform = false ∧ t.code ≠ 3857) :=
  ⟨⟨⟨⟨25832, .cartesian, 25832⟩, 3857, .cartesian, 3857, true⟩, by decide, by decide⟩,
   ⟨⟨⟨25832, .cartesian, 25832⟩, 25832, .cartesian, 25832, false⟩, by decide, by decide, by decide⟩⟩

example : ∃ t, compute known 25832 "" (-1) "" = .ok t ∧ t.code = t.base.code ∧ ((4326 : Int) = t.code ↔ SRS.geographic = t.type) ∧
    (next t 4326 .geographic).transform = true :=
  ⟨⟨⟨25832, .cartesian, 25832⟩, 25832, .cartesian, 25832, false⟩, by decide, rfl, by decide, by decide⟩

/-- Only the type of the target is given. -/
example : ∃ t, compute known 4326 "" (-1) "cartesian" = .ok t ∧ t.code = 3857 ∧ t.transform = true :=
  ⟨⟨⟨4326, .geographic, 4326⟩, 3857, .cartesian, 3857, true⟩, by decide, rfl, rfl⟩

/-- **C50.**  Whatever is given, the answer is a transformation or an exception; an exception exactly for a negative source, a source
without type whose code is not known, or a target without type whose code is not known. -/
theorem refused_iff (code tcode : Int) (type ttype : String) :
    compute latlong code type tcode ttype ≠ .ub ∧ (compute latlong code type tcode ttype = .throws ↔
      code < 0 ∨ (typeOfName type = .invalid ∧ latlong code = none) ∨ (typeOfName ttype = .invalid ∧ 0 ≤ tcode ∧ latlong tcode = none)) := by
  by_cases hc : code < 0
  · simp [compute, computeSrs, hc]
  · have hb : computeSrs latlong code type = (if typeOfName type = .invalid then (typeOfProj latlong code).map fun t => ⟨code, t, code⟩
        else .ok ⟨code, typeOfName type, code⟩) := by rw [computeSrs, if_neg hc]
    have hty : ∀ c, typeOfProj latlong c ≠ .ub ∧ (typeOfProj latlong c = .throws ↔ latlong c = none) := by
      intro c
      unfold typeOfProj
      cases latlong c with
      | none => simp
      | some g => cases g <;> simp
    have hb2 : computeSrs latlong code type ≠ .ub ∧
        (computeSrs latlong code type = .throws ↔ typeOfName type = .invalid ∧ latlong code = none) := by
      rw [hb]
      by_cases hi : typeOfName type = .invalid
      · rw [if_pos hi]
        have := hty code
        cases h : typeOfProj latlong code with
        | ok t => rw [h] at this; simp only [Outcome.map_ok]; refine ⟨by simp, ?_⟩; simp [hi]; intro hn; exact absurd (this.2.2 hn) (by simp)
        | throws => rw [h] at this; simp [Outcome.map, hi]; exact this.2.1 rfl
        | ub => exact absurd h this.1
      · rw [if_neg hi]; simp [hi]
    have ht2 : target latlong code tcode (typeOfName ttype) ≠ .ub ∧ (target latlong code tcode (typeOfName ttype) = .throws ↔
        typeOfName ttype = .invalid ∧ 0 ≤ tcode ∧ latlong tcode = none) := by
      unfold target
      generalize typeOfName ttype = ty
      by_cases h4 : ty = .invalid ∧ 0 ≤ tcode
      · obtain ⟨rfl, h5⟩ := h4
        have := hty tcode
        simp only [reduceCtorEq, false_and, if_false, ne_eq, not_true_eq_false, h5, and_self, if_true, true_and]
        cases h : typeOfProj latlong tcode with
        | ok t => rw [h] at this; simp only [Outcome.map_ok]; refine ⟨by simp, ?_⟩; simp; intro hn; exact absurd (this.2.2 hn) (by simp)
        | throws => rw [h] at this; simp [Outcome.map]; exact this.2.1 rfl
        | ub => exact absurd h this.1
      · rw [if_neg h4]
        split_ifs <;> simp <;> intro a b <;> exact absurd ⟨a, b⟩ h4
    unfold compute
    cases h : computeSrs latlong code type with
    | ub => exact absurd h hb2.1
    | throws =>
      rw [h] at hb2
      simp only [Outcome.bind_throws, ne_eq, reduceCtorEq, not_false_eq_true, true_and]
      simp [hb2.2.1 rfl]
    | ok b =>
      have hnb : ¬ (typeOfName type = .invalid ∧ latlong code = none) := fun hx => by
        have := hb2.2.2 hx; rw [h] at this; cases this
      simp only [Outcome.bind_ok]
      cases h' : target latlong code tcode (typeOfName ttype) with
      | ub => exact absurd h' ht2.1
      | throws => rw [h'] at ht2; simp [Outcome.map, ht2.2.1 rfl]
      | ok p =>
        have hnt : ¬ (typeOfName ttype = .invalid ∧ 0 ≤ tcode ∧ latlong tcode = none) := fun hx => by
          have := ht2.2.2 hx; rw [h'] at this; cases this
        simp only [Outcome.map_ok, ne_eq, reduceCtorEq, not_false_eq_true, true_and, false_iff]
        simp only [hc, hnb, hnt, or_self, not_false_eq_true]

example : compute (fun c => if c = 4326 then some true else none) 4326 "" 99999 "" = .throws ∧
    compute (fun c => if c = 4326 then some true else none) 99999 "" 4326 "" = .throws := by
  refine ⟨by decide, by decide⟩

end MM.Srs
