import Verif.Model.EagerRoute
import Verif.Props.Route
import Verif.Props.RouteLife

/-! # Property theorems C118 (values computed at once, values of copies and parts) -/

set_option autoImplicit false
set_option linter.unusedSectionVars false

namespace MM.Route

open MM.Line
open MM.RouteLife (copyRoute copy_spec val)

variable {P : Type} [DecidableEq P] {R A : Type} [DecidableEq A]

/-- Eager routes that result from a history of building, copying, merging and cutting. -/
inductive EagerReach (G : Geo P R A) : Lazy P R A → Prop where
  | of {l : Lazy P R A} (r : Route P) : Eager.of G r = .ok l → EagerReach G l
  | copy {l : Lazy P R A} {ext : Ref P → Prop} {next : Nat} : EagerReach G l → Good ext next l.route → EagerReach G (l.copy next)
  | merge {rs : List (Lazy P R A)} {l : Lazy P R A} (connect except : Bool) (next : Nat) : (∀ r ∈ rs, EagerReach G r) →
      Eager.merge G connect except next rs = .ok l → EagerReach G l
  | sub {m l : Lazy P R A} (a b next : Nat) : EagerReach G m → Eager.sub G m a b next = .ok l → EagerReach G l

/-- Lazy routes that result from a history of building, asking, copying, merging, cutting and trimming. -/
inductive LazyReach (G : Geo P R A) (turn : A → Bool) : Lazy P R A → Prop where
  | new (r : Route P) : LazyReach G turn ⟨r, Data.new⟩
  | query {l : Lazy P R A} (q : Query) : LazyReach G turn l → Long l.route.lines → LazyReach G turn (query G l q).2
  | copy {l : Lazy P R A} {ext : Ref P → Prop} {next : Nat} : LazyReach G turn l → Good ext next l.route →
      LazyReach G turn (l.copy next)
  | merge {rs : List (Lazy P R A)} {l : Lazy P R A} (connect except : Bool) (next : Nat) : (∀ r ∈ rs, LazyReach G turn r) →
      Lazy.merge connect except next rs = .ok l → LazyReach G turn l
  | sub {m l : Lazy P R A} (a b next : Nat) : LazyReach G turn m → m.sub a b next = .ok l → LazyReach G turn l
  | subAt {m l : Lazy P R A} (a aPos b bPos next : Nat) : LazyReach G turn m → m.subAt a aPos b bPos next = .ok l → LazyReach G turn l
  | trim {m k l : Lazy P R A} (next : Nat) : LazyReach G turn m → LazyReach G turn k → Lazy.trimMerge G turn next m k = .ok l →
      LazyReach G turn l

theorem copy_lines {l : Lazy P R A} {ext : Ref P → Prop} {next : Nat} (h : Good ext next l.route) :
    (l.copy next).route.lines = l.route.lines ∧ (l.copy next).route.invalid = l.route.invalid := by
  have := (copy_spec h).2.1
  simp only [val, Prod.mk.injEq] at this
  exact ⟨this.2, this.1⟩

theorem coh_new (G : Geo P R A) (r : Route P) : Coh G (⟨r, Data.new⟩ : Lazy P R A) := ⟨.inl rfl, .inl rfl, .inl ⟨rfl, rfl⟩⟩

theorem map_new_ok {o : Outcome (Route P)} {l : Lazy P R A} (h : (o.map fun r => (⟨r, Data.new⟩ : Lazy P R A)) = .ok l) :
    ∃ r, l = ⟨r, Data.new⟩ := by
  cases o with
  | ok r => simp only [Outcome.map_ok, Outcome.ok.injEq] at h; exact ⟨r, h.symm⟩
  | throws => simp at h
  | ub => simp at h

theorem lazyReach_coh (G : Geo P R A) {turn : A → Bool} {l : Lazy P R A} (h : LazyReach G turn l) : Coh G l := by
  induction h with
  | new r => exact coh_new G r
  | query q _ hl ih => exact (query_coh G ih hl q).2.1
  | @copy l ext next _ hg ih =>
    have := (copy_lines hg).1
    refine ⟨?_, ?_, ?_⟩
    · rw [this]; exact ih.len
    · rw [this]; exact ih.az
    · rw [this]; exact ih.dirs
  | merge connect except next _ hm _ => obtain ⟨r, rfl⟩ := map_new_ok hm; exact coh_new G r
  | sub a b next _ hm _ => obtain ⟨r, rfl⟩ := map_new_ok hm; exact coh_new G r
  | subAt a aPos b bPos next _ hm _ => obtain ⟨r, rfl⟩ := map_new_ok hm; exact coh_new G r
  | trim next _ _ hm _ _ => obtain ⟨r, rfl⟩ := map_new_ok hm; exact coh_new G r

/-- All values are those of the lines. -/
structure Full (G : Geo P R A) (l : Lazy P R A) : Prop where
  len : l.data.length = cellOf (routeLength G l.route.lines)
  az : l.data.azimuth = cellOf (routeAzimuth G l.route.lines)
  dirs : ∃ d a, routeDirections G id l.route.lines = .ok d ∧ routeDirections G G.abs l.route.lines = .ok a ∧
      l.data.directions = cellOf d ∧ l.data.absolute = cellOf a ∧ l.data.connected = linesConnected l.route.lines

theorem eager_of_full (G : Geo P R A) {r : Route P} {l : Lazy P R A} (h : Eager.of G r = .ok l) : Full G l ∧ l.route = r := by
  unfold Eager.of at h
  have e : computeAzimuth G (computeLength G (⟨r, Data.new⟩ : Lazy P R A)) =
      ⟨r, ⟨cellOf (routeLength G r.lines), cellOf (routeAzimuth G r.lines), .uninit, .uninit, false⟩⟩ := rfl
  rw [e] at h
  unfold computeDirections at h
  simp only [Cell.isUninit, Bool.or_self, if_true] at h
  cases hd : routeDirections G id r.lines with
  | ok d =>
    cases ha : routeDirections G G.abs r.lines with
    | ok a =>
      simp only [hd, ha, if_true, Outcome.ok.injEq] at h
      subst h
      exact ⟨⟨rfl, rfl, d, a, hd, ha, rfl, rfl, rfl⟩, rfl⟩
    | throws => simp [hd, ha] at h
    | ub => simp [hd, ha] at h
  | throws => simp [hd] at h
  | ub => simp [hd] at h

theorem bind_of {G : Geo P R A} {o : Outcome (Route P)} {l : Lazy P R A} (h : o.bind (Eager.of G) = .ok l) : ∃ r, o = .ok r ∧ Eager.of G r = .ok l := by
  cases o with
  | ok r => exact ⟨r, rfl, h⟩
  | throws => simp at h
  | ub => simp at h

theorem eagerReach_full (G : Geo P R A) {l : Lazy P R A} (h : EagerReach G l) : Full G l ∨ l.route.lines = [] ∧ l.route.invalid = true := by
  induction h with
  | of r hr => exact .inl (eager_of_full G hr).1
  | @copy l ext next _ hg ih =>
    have := copy_lines hg
    rcases ih with ih | ih
    · refine .inl ⟨?_, ?_, ?_⟩
      · rw [this.1]; exact ih.len
      · rw [this.1]; exact ih.az
      · rw [this.1]; exact ih.dirs
    · rw [this.1, this.2]; exact .inr ih
  | @merge rs l connect except next _ hm _ =>
    unfold Eager.merge at hm
    split_ifs at hm
    · simp only [Outcome.ok.injEq] at hm
      subst hm
      exact .inr ⟨rfl, rfl⟩
    · obtain ⟨r, _, hr⟩ := bind_of hm
      exact .inl (eager_of_full G hr).1
  | sub a b next _ hm _ => obtain ⟨r, _, hr⟩ := bind_of hm; exact .inl (eager_of_full G hr).1

/-- **C118, computed at once.**  An eager route that is not invalid answers every query with the value its lines give, whatever it was
copied, merged or cut from.
Missing from the full property: routes made of nothing (`blank_unconnected_fails`), lines with a single point
(`not_made_fails`) and joining (`eager_join_stale_fails`). -/
theorem eager_values_partial (G : Geo P R A) {l : Lazy P R A} (h : EagerReach G l) (hv : l.route.invalid = false) (q : Query) :
    .ok (Eager.answer l q) = expected G l.route.lines q := by
  rcases eagerReach_full G h with hf | hf
  · obtain ⟨d, a, h1, h2, h3, h4, h5⟩ := hf.dirs
    cases q <;> simp [Eager.answer, expected, hf.len, hf.az, h1, h2, h3, h4, h5]
  · rw [hf.2] at hv; exact absurd hv (by simp)

/-- **C118, computed when asked.**  The same of lazy routes, which are also cut within lines and trimmed. -/
theorem lazy_values_partial (G : Geo P R A) {turn : A → Bool} {l : Lazy P R A} (h : LazyReach G turn l) (hl : Long l.route.lines) (q : Query) :
    (query G l q).1 = expected G l.route.lines q :=
  (query_coh G (lazyReach_coh G h) hl q).1

/-- Lines of at least two points can always be made an eager route, and it refers to just these lines. -/
theorem eager_made (G : Geo P R A) (r : Route P) (hl : Long r.lines) : ∃ l, Eager.of G r = .ok l ∧ l.route = r := by
  obtain ⟨d, hd⟩ := routeDirections_ok G id r.lines hl
  obtain ⟨a, ha⟩ := routeDirections_ok G G.abs r.lines hl
  have : ∃ l, Eager.of G r = .ok l := by
    unfold Eager.of computeDirections computeAzimuth computeLength
    simp [Data.new, Cell.isUninit, hd, ha]
  obtain ⟨l, h⟩ := this
  exact ⟨l, h, (eager_of_full G h).2⟩

/-- **C118, the kinds agree.**  An eager and a lazy route with the same lines give the same answers, each whatever its history. -/
theorem kinds_agree_partial (G : Geo P R A) {turn : A → Bool} {e l : Lazy P R A} (he : EagerReach G e) (hl : LazyReach G turn l)
    (hlines : e.route.lines = l.route.lines) (hlong : Long l.route.lines) (hv : e.route.invalid = false) (q : Query) :
    (query G l q).1 = .ok (Eager.answer e q) := by
  rw [lazy_values_partial G hl hlong, eager_values_partial G he hv, hlines]

/-- What is made of eager routes, if it is made at all, has the lines that the same call makes of plain routes. -/
theorem eager_like_plain (G : Geo P R A) {m l : Lazy P R A} (rs : List (Lazy P R A)) (connect except : Bool) (a b next : Nat) :
    (Eager.sub G m a b next = .ok l → subRoute m.route a b next = .ok l.route) ∧
    (Eager.merge G connect except next rs = .ok l → Route.merge connect except next (rs.map Lazy.route) = .ok l.route) := by
  constructor
  · intro h
    obtain ⟨r, h1, h2⟩ := bind_of h
    rw [h1, (eager_of_full G h2).2]
  · intro h
    unfold Eager.merge at h
    split_ifs at h with hi
    · simp only [Outcome.ok.injEq] at h
      subst h
      unfold Route.merge
      rw [if_pos hi]
      rfl
    · obtain ⟨r, h1, h2⟩ := bind_of h
      rw [h1, (eager_of_full G h2).2]

/-- Cutting and trimming lazy routes gives the lines, or the exception, that the same call gives for plain routes. -/
theorem lazy_like_plain (G : Geo P R A) (turn : A → Bool) (m k : Lazy P R A) (a aPos b bPos next : Nat) :
    (m.sub a b next).map Lazy.route = subRoute m.route a b next ∧
    (m.subAt a aPos b bPos next).map Lazy.route = subRouteAt m.route a aPos b bPos next ∧
    (Lazy.trimMerge G turn next m k).map Lazy.route = Route.trimMerge G turn next m.route k.route := by
  have h : ∀ o : Outcome (Route P), (o.map fun r => (⟨r, Data.new⟩ : Lazy P R A)).map Lazy.route = o := by
    intro o; cases o <;> rfl
  exact ⟨h _, h _, h _⟩

/-- The part that is cut off an eager route. -/
example : ∃ m l : Lazy Nat Nat Nat, Eager.of demoGeo demoA = .ok m ∧ Eager.sub demoGeo m 1 2 20 = .ok l ∧ l.route.lines = [[0, 1]] := by
  obtain ⟨m, h1, h2⟩ := eager_made demoGeo demoA (by simp [Long, Route.lines, demoA])
  obtain ⟨l, h3, h4⟩ := eager_made demoGeo (⟨[], [⟨0, [0, 1]⟩], false⟩ : Route Nat) (by simp [Long, Route.lines])
  refine ⟨m, l, h1, ?_, by rw [h4]; decide⟩
  unfold Eager.sub
  rw [h2, show subRoute demoA 1 2 20 = .ok ⟨[], [⟨0, [0, 1]⟩], false⟩ from rfl]
  exact h3

theorem demoA_good : Good demoExt 20 demoA := demo_good demoA (by simp)

/-- A copy of a merged eager route, and a copy of a lazy route that was asked before. -/
example : ∃ e l : Lazy Nat Nat Nat, EagerReach demoGeo e ∧ LazyReach demoGeo (fun _ => false) l ∧ e.route.invalid = false ∧
    Long l.route.lines ∧ e.route.lines = l.route.lines ∧ l.route.lines = [[5, 0], [0, 1]] ∧ l.data.length = .val 6 ∧
    Eager.answer e .length = .len (.val 6) ∧ Eager.answer e .connected = .yes true ∧ e.route.own.map Ref.addr = [20] := by
  obtain ⟨m, h1, h2⟩ := eager_made demoGeo demoA (by simp [Long, Route.lines, demoA])
  have hf := (eager_of_full demoGeo h1).1
  obtain ⟨d, a, _, _, _, _, hc⟩ := hf.dirs
  have hlen := hf.len
  rw [h2] at hlen hc
  have hg : Good demoExt 20 m.route := h2 ▸ demoA_good
  have hg' : Good demoExt 20 (query demoGeo (⟨demoA, Data.new⟩ : Lazy Nat Nat Nat) .length).2.route := demoA_good
  have hcl := copy_lines hg
  have hcl' := copy_lines hg'
  rw [h2] at hcl
  refine ⟨m.copy 20, (query demoGeo (⟨demoA, Data.new⟩ : Lazy Nat Nat Nat) .length).2.copy 20, .copy (.of _ h1) hg,
    .copy (.query _ (.new _) ?_) hg', hcl.2, ?_, hcl.1.trans hcl'.1.symm, by decide, by decide, ?_, ?_, ?_⟩
  · simp [Long, Route.lines, demoA]
  · rw [hcl'.1]; intro x hx; revert x; decide
  · show Answer.len m.data.length = _
    rw [hlen]; decide
  · show Answer.yes m.data.connected = _
    rw [hc]; decide
  · show (copyRoute m.route 20).own.map Ref.addr = _
    rw [h2]; decide

/-- The example of the eager route made of lines that meet. -/
example : ∃ l : Lazy Nat Nat Nat, Eager.of demoGeo demoA = .ok l ∧ l.route.lines = [[5, 0], [0, 1]] := by
  obtain ⟨l, h1, h2⟩ := eager_made demoGeo demoA (by simp [Long, Route.lines, demoA])
  exact ⟨l, h1, by rw [h2]; decide⟩

/-- A lazy route cut within its lines. -/
example : ∃ l : Lazy Nat Nat Nat, LazyReach demoGeo (fun _ => false) l ∧ l.route.lines = [[0, 1]] ∧ Long l.route.lines ∧
    (query demoGeo l .length).1 = .ok (.len (.val 1)) := by
  have h : ∃ l : Lazy Nat Nat Nat, (⟨demoA, Data.new⟩ : Lazy Nat Nat Nat).sub 1 2 20 = .ok l ∧ l.route.lines = [[0, 1]] := by
    exact ⟨⟨⟨[], [⟨0, [0, 1]⟩], false⟩, Data.new⟩, rfl, by decide⟩
  obtain ⟨l, h1, h2⟩ := h
  have hr : LazyReach demoGeo (fun _ => false) l := .sub 1 2 20 (.new demoA) h1
  have hl : Long l.route.lines := by rw [h2]; simp [Long]
  exact ⟨l, hr, h2, hl, by rw [lazy_values_partial demoGeo hr hl, h2]; decide⟩

/-- **C118 fails**: an eager route made of nothing, or merged of invalid routes, is not connected; the lazy one is, and so is an eager
one made of an empty list of lines. -/
theorem blank_unconnected_fails (G : Geo P R A) (invalid : Bool) :
    Eager.answer (Eager.blank invalid : Lazy P R A) .connected = .yes false ∧
    (query G (⟨⟨[], [], invalid⟩, Data.new⟩ : Lazy P R A) .connected).1 = .ok (.yes true) ∧
    Eager.merge G false false 0 [(Eager.blank true : Lazy P R A)] = .ok (Eager.blank true) ∧
    ∃ l : Lazy P R A, Eager.of G ⟨[], [], false⟩ = .ok l ∧ Eager.answer l .connected = .yes true := by
  refine ⟨rfl, rfl, rfl, ?_⟩
  obtain ⟨l, h1, h2⟩ := eager_made G (⟨[], [], false⟩ : Route P) (by simp [Long, Route.lines])
  obtain ⟨_, _, _, _, _, _, h⟩ := (eager_of_full G h1).1.dirs
  refine ⟨l, h1, ?_⟩
  rw [Eager.answer, h, h2]
  rfl

/-- **C118 fails**: with a line of a single point at a joint no eager route can be made; a lazy one is, and tells its length. -/
theorem not_made_fails : ∃ r : Route Nat, Eager.of demoGeo r = .throws ∧ r.lines = [[0, 1], [1]] ∧ r.isConnected = true ∧
    (query demoGeo (⟨r, Data.new⟩ : Lazy Nat Nat Nat) .length).1 = .ok (.len (.val 1)) :=
  ⟨Route.ofRefs [⟨0, [0, 1]⟩, ⟨5, [1]⟩], rfl, by decide, by decide, by decide⟩

/-- **C118 fails**: joining changes the lines and leaves the values; an eager route keeps telling the length it had before. -/
theorem eager_join_stale_fails : ∃ a b : Lazy Nat Nat Nat, EagerReach demoGeo a ∧ EagerReach demoGeo b ∧
    (Eager.join demoGeo (fun _ => false) true 20 a b).1.route.lines = [[5, 0], [0, 9]] ∧
    Eager.answer (Eager.join demoGeo (fun _ => false) true 20 a b).1 .length = .len (.val 6) ∧
    routeLength demoGeo [[5, 0], [0, 9]] = some 14 := by
  obtain ⟨a, h1, h2⟩ := eager_made demoGeo demoA (by simp [Long, Route.lines, demoA])
  obtain ⟨b, h3, h4⟩ := eager_made demoGeo (Route.ofOwn [⟨15, [1, 9]⟩]) (by simp [Long, Route.lines, Route.ofOwn])
  have hlen := (eager_of_full demoGeo h1).1.len
  rw [h2] at hlen
  refine ⟨a, b, .of _ h1, .of _ h3, ?_, ?_, by decide⟩
  · show (Route.join demoGeo (fun _ => false) true 20 a.route b.route).1.lines = _
    rw [h2, h4]; decide
  · show Answer.len a.data.length = _
    rw [hlen]; decide

end MM.Route
