import Verif.Model.IndexBuild
import Mathlib.Data.List.Nodup
import Mathlib.Data.List.Perm.Subperm
import Mathlib.Algebra.Order.Ring.Int

/-!
# C83: the spatial indices hold the whole network
-/

set_option autoImplicit false
set_option linter.unusedSectionVars false

namespace MM.IndexBuild

open MM.Line MM.GHelper

variable {P : Type}

/-! ### What is to be collected -/

theorem mem_pointsFrom (ps : List P) : ∀ (i : Nat) (p : P) (v : Nat),
    (p, v) ∈ pointsFrom i ps ↔ i ≤ v ∧ ps[v - i]? = some p := by
  induction ps with
  | nil => intro i p v; simp [pointsFrom]
  | cons q ps ih =>
    intro i p v
    rw [pointsFrom, List.mem_cons, ih]
    constructor
    · rintro (h | ⟨h1, h2⟩)
      · obtain ⟨rfl, rfl⟩ := Prod.mk.inj h
        exact ⟨Nat.le_refl _, by simp⟩
      · refine ⟨by omega, ?_⟩
        rw [show v - i = (v - (i + 1)) + 1 by omega, List.getElem?_cons_succ]
        exact h2
    · rintro ⟨h1, h2⟩
      by_cases hv : v = i
      · subst hv
        rw [Nat.sub_self, List.getElem?_cons_zero, Option.some.injEq] at h2
        exact .inl (by rw [h2])
      · right
        refine ⟨by omega, ?_⟩
        rw [show v - i = (v - (i + 1)) + 1 by omega, List.getElem?_cons_succ] at h2
        exact h2

theorem pointsFrom_keys (ps : List P) : ∀ i, ((pointsFrom i ps).map Prod.snd) = List.range' i ps.length := by
  induction ps with
  | nil => intro i; rfl
  | cons p ps ih => intro i; rw [pointsFrom, List.map_cons, ih, List.length_cons, List.range'_succ]

theorem pointsFrom_length (ps : List P) (i : Nat) : (pointsFrom i ps).length = ps.length := by
  have := congrArg List.length (pointsFrom_keys ps i)
  simpa using this

theorem mem_segmentsFrom (e : Nat) (ss : List (P × P)) : ∀ (i : Nat) (s : P × P) (f j : Nat),
    (s, (f, j)) ∈ segmentsFrom e i ss ↔ f = e ∧ i ≤ j ∧ ss[j - i]? = some s := by
  induction ss with
  | nil => intro i s f j; simp [segmentsFrom]
  | cons t ss ih =>
    intro i s f j
    rw [segmentsFrom, List.mem_cons, ih]
    constructor
    · rintro (h | ⟨h0, h1, h2⟩)
      · simp only [Prod.mk.injEq] at h
        obtain ⟨rfl, rfl, rfl⟩ := h
        exact ⟨rfl, Nat.le_refl _, by simp⟩
      · refine ⟨h0, by omega, ?_⟩
        rw [show j - i = (j - (i + 1)) + 1 by omega, List.getElem?_cons_succ]
        exact h2
    · rintro ⟨h0, h1, h2⟩
      by_cases hj : j = i
      · subst hj
        rw [Nat.sub_self, List.getElem?_cons_zero, Option.some.injEq] at h2
        exact .inl (by rw [h2, h0])
      · right
        refine ⟨h0, by omega, ?_⟩
        rw [show j - i = (j - (i + 1)) + 1 by omega, List.getElem?_cons_succ] at h2
        exact h2

theorem segmentsFrom_nodup (e : Nat) (ss : List (P × P)) : ∀ i, ((segmentsFrom e i ss).map Prod.snd).Nodup := by
  induction ss with
  | nil => intro i; exact List.nodup_nil
  | cons t ss ih =>
    intro i
    rw [segmentsFrom, List.map_cons, List.nodup_cons]
    refine ⟨?_, ih (i + 1)⟩
    intro h
    obtain ⟨⟨s, f, j⟩, h1, h2⟩ := List.mem_map.1 h
    simp only [Prod.mk.injEq] at h2
    have := ((mem_segmentsFrom e ss (i + 1) s f j).1 h1).2.1
    omega

theorem segmentsFrom_length (e : Nat) (ss : List (P × P)) : ∀ i, (segmentsFrom e i ss).length = ss.length := by
  induction ss with
  | nil => intro i; rfl
  | cons t ss ih => intro i; rw [segmentsFrom, List.length_cons, ih, List.length_cons]

theorem segs_getElem? (l : List P) : ∀ (j : Nat) (a b : P), (segs l)[j]? = some (a, b) ↔ l[j]? = some a ∧ l[j + 1]? = some b := by
  intro j a b
  unfold segs
  rw [List.getElem?_zip_eq_some]
  simp

theorem mem_edgesFrom (ls : List (List P)) : ∀ (e : Nat) (a b : P) (f j : Nat),
    ((a, b), (f, j)) ∈ edgesFrom e ls ↔ e ≤ f ∧ ∃ l, ls[f - e]? = some l ∧ l[j]? = some a ∧ l[j + 1]? = some b := by
  induction ls with
  | nil => intro e a b f j; simp [edgesFrom]
  | cons l ls ih =>
    intro e a b f j
    rw [edgesFrom, List.mem_append, ih, mem_segmentsFrom, segs_getElem?]
    constructor
    · rintro (⟨h0, _, h2⟩ | ⟨h1, l', h2, h3⟩)
      · subst h0
        exact ⟨Nat.le_refl _, l, by simp, h2⟩
      · refine ⟨by omega, l', ?_, h3⟩
        rw [show f - e = (f - (e + 1)) + 1 by omega, List.getElem?_cons_succ]
        exact h2
    · rintro ⟨h1, l', h2, h3⟩
      by_cases hf : f = e
      · subst hf
        rw [Nat.sub_self, List.getElem?_cons_zero, Option.some.injEq] at h2
        subst h2
        exact .inl ⟨rfl, Nat.zero_le _, h3⟩
      · right
        refine ⟨by omega, l', ?_, h3⟩
        rw [show f - e = (f - (e + 1)) + 1 by omega, List.getElem?_cons_succ] at h2
        exact h2

theorem edgesFrom_nodup (ls : List (List P)) : ∀ e, ((edgesFrom e ls).map Prod.snd).Nodup := by
  induction ls with
  | nil => intro e; exact List.nodup_nil
  | cons l ls ih =>
    intro e
    rw [edgesFrom, List.map_append, List.nodup_append]
    refine ⟨segmentsFrom_nodup _ _ _, ih _, ?_⟩
    intro x hx y hy hxy
    obtain ⟨⟨s, f, j⟩, h1, h2⟩ := List.mem_map.1 hx
    obtain ⟨⟨⟨a, b⟩, g, k⟩, h3, h4⟩ := List.mem_map.1 hy
    have e1 := ((mem_segmentsFrom _ _ _ _ _ _).1 h1).1
    have e2 := ((mem_edgesFrom _ _ _ _ _ _).1 h3).1
    subst h2 h4
    simp only [Prod.mk.injEq] at hxy
    omega

theorem countSegments_eq (ls : List (List P)) : ∀ e, (edgesFrom e ls).length = countSegments ls := by
  have hgen : ∀ (ls : List (List P)) (n e : Nat),
      ls.foldl (fun n l => if 1 ≤ l.length then n + (l.length - 1) else n) n = n + (edgesFrom e ls).length := by
    intro ls
    induction ls with
    | nil => intro n e; rfl
    | cons l ls ih =>
      intro n e
      rw [List.foldl_cons, ih _ (e + 1), edgesFrom, List.length_append, segmentsFrom_length]
      have : (segs l).length = l.length - 1 := by simp [segs]
      rw [this]
      split_ifs <;> omega
  intro e
  rw [countSegments, hgen ls 0 e]
  omega

/-! ### Collecting -/

theorem andThen_ok {S : Type} (s : S) (f : S → Outcome (S × Option Unit)) : andThen (.ok (s, some ())) f = f s := rfl

theorem andThen_bad {S : Type} (s : S) (f : S → Outcome (S × Option Unit)) : andThen (.ok (s, none)) f = .ok (s, none) := rfl

/-- With room for all of them, values are added whatever allocations would fail. -/
theorem addAll_points (mapped : Bool) (xs : List (PointEntry P)) : ∀ b : Build P, b.points.length + xs.length ≤ b.pointRoom →
    addAll mapped addPoint xs b = .ok ({ b with points := b.points ++ xs }, some ()) := by
  induction xs with
  | nil => intro b _; simp [addAll]
  | cons x xs ih =>
    intro b h
    rw [List.length_cons] at h
    have ha : addPoint x b = .ok ({ b with points := b.points ++ [x] }, some ()) := by
      rw [addPoint, if_pos (by omega)]
    have hb : add mapped (addPoint x) b = .ok ({ b with points := b.points ++ [x] }, some ()) := by
      unfold add
      split
      · rw [retry, ha]
      · exact ha
    rw [addAll, hb, andThen_ok, ih _ (by simp only [List.length_append, List.length_singleton]; omega)]
    simp

theorem addAll_segments (mapped : Bool) (xs : List (SegEntry P)) : ∀ b : Build P, b.segments.length + xs.length ≤ b.segRoom →
    addAll mapped addSegment xs b = .ok ({ b with segments := b.segments ++ xs }, some ()) := by
  induction xs with
  | nil => intro b _; simp [addAll]
  | cons x xs ih =>
    intro b h
    rw [List.length_cons] at h
    have ha : addSegment x b = .ok ({ b with segments := b.segments ++ [x] }, some ()) := by
      rw [addSegment, if_pos (by omega)]
    have hb : add mapped (addSegment x) b = .ok ({ b with segments := b.segments ++ [x] }, some ()) := by
      unfold add
      split
      · rw [retry, ha]
      · exact ha
    rw [addAll, hb, andThen_ok, ih _ (by simp only [List.length_append, List.length_singleton]; omega)]
    simp

/-- A property kept by failed attempts and growth, and established by successful ones, holds after the retries. -/
theorem retry_inv {S A : Type} {attempt : S → Outcome (S × Option A)} {grow : S → S} (I J : S → Prop)
    (h1 : ∀ s, I s → ∃ t o, attempt s = .ok (t, o) ∧ (o = none → I t) ∧ (o.isSome → J t)) (h2 : ∀ s, I s → I (grow s)) :
    ∀ (r : Nat) (s : S), I s → ∃ t o, retry attempt grow r s = .ok (t, o) ∧ (o = none → I t) ∧ (o.isSome → J t) := by
  intro r
  induction r with
  | zero =>
    intro s hs
    obtain ⟨t, o, e, i, j⟩ := h1 s hs
    rw [retry, e]
    cases o with
    | none => exact ⟨grow t, none, rfl, fun _ => h2 t (i rfl), by simp⟩
    | some a => exact ⟨t, some a, rfl, by simp, fun _ => j rfl⟩
  | succ r ih =>
    intro s hs
    obtain ⟨t, o, e, i, j⟩ := h1 s hs
    rw [retry, e]
    cases o with
    | none => exact ih (grow t) (h2 t (i rfl))
    | some a => exact ⟨t, some a, rfl, by simp, fun _ => j rfl⟩

/-- A reservation changes nothing but the room, the size and the allocations to come. -/
theorem reserve_points_spec (mapped : Bool) (available n : Nat) (b : Build P) :
    reserve mapped available (reservePoints n) b = .ub ∧ mapped = true ∧ (b.size = 0 ∨ available < b.size) ∨
    ∃ t o, reserve mapped available (reservePoints n) b = .ok (t, o) ∧ t.points = b.points ∧ t.segments = b.segments ∧
      (o.isSome → n ≤ t.pointRoom) := by
  have h1 : ∀ s : Build P, s.points = b.points ∧ s.segments = b.segments → ∃ t o, reservePoints n s = .ok (t, o) ∧
      (o = none → t.points = b.points ∧ t.segments = b.segments) ∧
      (o.isSome → (t.points = b.points ∧ t.segments = b.segments) ∧ n ≤ t.pointRoom) := by
    rintro s ⟨e1, e2⟩
    unfold reservePoints
    split_ifs with h2 h3
    · exact ⟨s, _, rfl, by simp, fun _ => ⟨⟨e1, e2⟩, h2⟩⟩
    · exact ⟨_, _, rfl, fun _ => ⟨e1, e2⟩, by simp⟩
    · exact ⟨_, _, rfl, by simp, fun _ => ⟨⟨e1, e2⟩, Nat.le_refl _⟩⟩
  have hfin : ∀ (t : Build P) (o : Option Unit), (o = none → t.points = b.points ∧ t.segments = b.segments) →
      (o.isSome → (t.points = b.points ∧ t.segments = b.segments) ∧ n ≤ t.pointRoom) →
      t.points = b.points ∧ t.segments = b.segments ∧ (o.isSome → n ≤ t.pointRoom) := by
    intro t o i j
    cases o with
    | none => exact ⟨(i rfl).1, (i rfl).2, by simp⟩
    | some u => exact ⟨(j rfl).1.1, (j rfl).1.2, fun _ => (j rfl).2⟩
  unfold reserve
  split_ifs with hm
  · unfold maxRetries
    split_ifs with hz hq
    · exact .inl ⟨rfl, hm, .inl hz⟩
    · refine .inl ⟨rfl, hm, .inr ?_⟩
      exact (Nat.div_eq_zero_iff.1 hq).resolve_left hz
    · right
      obtain ⟨t, o, e, i, j⟩ := retry_inv (attempt := reservePoints n) (grow := growBuild) _ _ h1 (fun s h => h)
        (Nat.log2 (available / b.size)) b ⟨rfl, rfl⟩
      exact ⟨t, o, e, hfin t o i j⟩
  · right
    obtain ⟨t, o, e, i, j⟩ := h1 b ⟨rfl, rfl⟩
    exact ⟨t, o, e, hfin t o i j⟩

theorem reserve_segments_spec (mapped : Bool) (available n : Nat) (b : Build P) :
    reserve mapped available (reserveSegments n) b = .ub ∧ mapped = true ∧ (b.size = 0 ∨ available < b.size) ∨
    ∃ t o, reserve mapped available (reserveSegments n) b = .ok (t, o) ∧ t.points = b.points ∧ t.segments = b.segments ∧
      (o.isSome → n ≤ t.segRoom) := by
  have h1 : ∀ s : Build P, s.points = b.points ∧ s.segments = b.segments → ∃ t o, reserveSegments n s = .ok (t, o) ∧
      (o = none → t.points = b.points ∧ t.segments = b.segments) ∧
      (o.isSome → (t.points = b.points ∧ t.segments = b.segments) ∧ n ≤ t.segRoom) := by
    rintro s ⟨e1, e2⟩
    unfold reserveSegments
    split_ifs with h2 h3
    · exact ⟨s, _, rfl, by simp, fun _ => ⟨⟨e1, e2⟩, h2⟩⟩
    · exact ⟨_, _, rfl, fun _ => ⟨e1, e2⟩, by simp⟩
    · exact ⟨_, _, rfl, by simp, fun _ => ⟨⟨e1, e2⟩, Nat.le_refl _⟩⟩
  have hfin : ∀ (t : Build P) (o : Option Unit), (o = none → t.points = b.points ∧ t.segments = b.segments) →
      (o.isSome → (t.points = b.points ∧ t.segments = b.segments) ∧ n ≤ t.segRoom) →
      t.points = b.points ∧ t.segments = b.segments ∧ (o.isSome → n ≤ t.segRoom) := by
    intro t o i j
    cases o with
    | none => exact ⟨(i rfl).1, (i rfl).2, by simp⟩
    | some u => exact ⟨(j rfl).1.1, (j rfl).1.2, fun _ => (j rfl).2⟩
  unfold reserve
  split_ifs with hm
  · unfold maxRetries
    split_ifs with hz hq
    · exact .inl ⟨rfl, hm, .inl hz⟩
    · refine .inl ⟨rfl, hm, .inr ?_⟩
      exact (Nat.div_eq_zero_iff.1 hq).resolve_left hz
    · right
      obtain ⟨t, o, e, i, j⟩ := retry_inv (attempt := reserveSegments n) (grow := growBuild) _ _ h1 (fun s h => h)
        (Nat.log2 (available / b.size)) b ⟨rfl, rfl⟩
      exact ⟨t, o, e, hfin t o i j⟩
  · right
    obtain ⟨t, o, e, i, j⟩ := h1 b ⟨rfl, rfl⟩
    exact ⟨t, o, e, hfin t o i j⟩

theorem gather_spec (mapped : Bool) (available : Nat) (verts : List P) (edges : List (List P)) (size : Nat)
    (failures : List Bool) : gather mapped available verts edges (Build.new size failures) = .ub ∧ mapped = true ∨
    ∃ t o, gather mapped available verts edges (Build.new size failures) = .ok (t, o) ∧
      (o.isSome → t.points = pointsFrom 0 verts ∧ t.segments = edgesFrom 0 edges) := by
  unfold gather
  rcases reserve_points_spec mapped available verts.length (Build.new size failures) with ⟨h1, h2, _⟩ | ⟨t1, o1, e1, p1, s1, r1⟩
  · left; rw [h1]; exact ⟨rfl, h2⟩
  · rw [e1]
    cases o1 with
    | none => right; exact ⟨t1, none, rfl, by simp⟩
    | some u =>
      rw [andThen_ok, addAll_points _ _ _ (by rw [p1, pointsFrom_length]; simpa [Build.new] using r1 rfl), andThen_ok]
      rcases reserve_segments_spec mapped available (countSegments edges) { t1 with points := t1.points ++ pointsFrom 0 verts }
        with ⟨h1, h2, _⟩ | ⟨t2, o2, e2, p2, s2, r2⟩
      · left; rw [h1]; exact ⟨rfl, h2⟩
      · rw [e2]
        cases o2 with
        | none => right; exact ⟨t2, none, rfl, by simp⟩
        | some u =>
          have hs : t2.segments = [] := by rw [s2]; exact s1
          have hp : t2.points = pointsFrom 0 verts := by
            rw [p2]
            show t1.points ++ _ = _
            rw [p1]; rfl
          rw [andThen_ok, addAll_segments _ _ _ (by rw [hs, countSegments_eq]; simpa using r2 rfl)]
          right
          exact ⟨_, _, rfl, fun _ => ⟨hp, by show t2.segments ++ _ = _; rw [hs]; rfl⟩⟩

/-! ### Building -/

theorem buildBoth_spec (mapped : Bool) (b : Build P) (x : Index P) (hx : x.points = none ∧ x.segments = none) :
    ∃ t o, buildBoth mapped b x = .ok (t, o) ∧ (o.isSome → t.points = some b.points ∧ t.segments = some b.segments) := by
  obtain ⟨hp, hs⟩ := hx
  unfold buildBoth buildPoints
  rw [if_neg (by simp [hp])]
  split_ifs with h1
  · rw [andThen_bad]; exact ⟨_, _, rfl, by simp⟩
  · rw [andThen_ok]
    unfold buildSegments
    rw [if_neg (by simp [hs])]
    simp only
    split_ifs with h2
    · exact ⟨_, _, rfl, by simp⟩
    · exact ⟨_, _, rfl, fun _ => ⟨rfl, rfl⟩⟩

theorem retry_build (b : Build P) : ∀ (r : Nat) (x : Index P), x.points = none ∧ x.segments = none →
    ∃ t o, retry (buildBoth true b) dropGrow r x = .ok (t, o) ∧
      (o.isSome → t.points = some b.points ∧ t.segments = some b.segments) := by
  intro r
  induction r with
  | zero =>
    intro x hx
    obtain ⟨t, o, e, j⟩ := buildBoth_spec true b x hx
    rw [retry, e]
    cases o with
    | none => exact ⟨_, _, rfl, by simp⟩
    | some a => exact ⟨t, some a, rfl, fun _ => j rfl⟩
  | succ r ih =>
    intro x hx
    obtain ⟨t, o, e, j⟩ := buildBoth_spec true b x hx
    rw [retry, e]
    cases o with
    | none => exact ih (dropGrow t) ⟨rfl, rfl⟩
    | some a => exact ⟨t, some a, rfl, fun _ => j rfl⟩

theorem buildIndices_spec (mapped mappedBuild : Bool) (available : Nat) (b : Build P) (size : Nat) (failures : List Bool) :
    buildIndices mapped mappedBuild available b (Index.new size failures) = .ub ∧ mapped = true ∨
    ∃ t o, buildIndices mapped mappedBuild available b (Index.new size failures) = .ok (t, o) ∧
      (o.isSome → t.points = some b.points ∧ t.segments = some b.segments) := by
  unfold buildIndices
  generalize growTo (Index.new (P := P) size failures).size (if mappedBuild = true then 2 * b.size else 2 * (2 * b.size)) = g
  by_cases hm : mapped = true
  · rw [if_pos hm]
    unfold maxRetries
    by_cases h1 : g = 0
    · rw [if_pos h1]; exact .inl ⟨rfl, hm⟩
    · rw [if_neg h1]
      by_cases h2 : available / g = 0
      · rw [if_pos h2]; exact .inl ⟨rfl, hm⟩
      · rw [if_neg h2, Outcome.bind_ok]
        exact .inr (retry_build b _ _ ⟨rfl, rfl⟩)
  · rw [if_neg hm]
    exact .inr (buildBoth_spec false b _ ⟨rfl, rfl⟩)

/-- What the indices of a network are to hold: every vertex and every segment of every edge exactly once, nothing else. -/
structure Complete (verts : List P) (edges : List (List P)) (x : Index P) : Prop where
  points : ∃ ps, x.points = some ps ∧ (ps.map Prod.snd).Nodup ∧ ∀ p v, (p, v) ∈ ps ↔ verts[v]? = some p
  segments : ∃ ss, x.segments = some ss ∧ (ss.map Prod.snd).Nodup ∧
    ∀ a b e i, ((a, b), (e, i)) ∈ ss ↔ ∃ l, edges[e]? = some l ∧ l[i]? = some a ∧ l[i + 1]? = some b

/-- **C83, complete or not at all.**  Whatever allocations fail, in mapped storage or in memory: if the building of the indices
of a new network returns, both indices hold every vertex and every segment of every edge exactly once and nothing else.  It
returns unless `bad_alloc` has left; undefined is only the number of retries in mapped storage with too little free space (see
`free_space_fails`). -/
theorem index_complete (mapped mappedBuild : Bool) (available : Nat) (verts : List P) (edges : List (List P))
    (buildSize indexSize : Nat) (fb fi : List Bool) :
    (buildSpatial mapped mappedBuild available verts edges (Build.new buildSize fb) (Index.new indexSize fi) = .ub ∧
      (mapped = true ∨ mappedBuild = true)) ∨
    ∃ x o, buildSpatial mapped mappedBuild available verts edges (Build.new buildSize fb) (Index.new indexSize fi) = .ok (x, o) ∧
      (o.isSome → Complete verts edges x) := by
  unfold buildSpatial
  rcases gather_spec mappedBuild available verts edges buildSize fb with ⟨h1, h2⟩ | ⟨t, o, e, h⟩
  · left; rw [h1]; exact ⟨rfl, .inr h2⟩
  · rw [e, Outcome.bind_ok]
    cases o with
    | none => right; exact ⟨_, _, rfl, by simp⟩
    | some u =>
      obtain ⟨hp, hs⟩ := h rfl
      simp only
      rcases buildIndices_spec mapped mappedBuild available t indexSize fi with ⟨h1, h2⟩ | ⟨x, o, e2, h3⟩
      · left; exact ⟨h1, .inl h2⟩
      · right
        refine ⟨x, o, e2, fun ho => ?_⟩
        obtain ⟨h4, h5⟩ := h3 ho
        rw [hp] at h4
        rw [hs] at h5
        refine ⟨⟨_, h4, ?_, fun p v => ?_⟩, ⟨_, h5, edgesFrom_nodup _ _, fun a b e i => ?_⟩⟩
        · rw [pointsFrom_keys]; exact List.nodup_range'
        · rw [mem_pointsFrom]; simp
        · rw [mem_edgesFrom]; simp

/-! ### Enough space -/

theorem maxRetries_ge {available size n : Nat} (hs : 0 < size) (h : size * 2 ^ n ≤ available) :
    ∃ r, maxRetries available size = .ok r ∧ n ≤ r := by
  have h1 : 2 ^ n ≤ available / size := (Nat.le_div_iff_mul_le hs).2 (by rw [Nat.mul_comm]; exact h)
  have h2 : available / size ≠ 0 := by
    have := Nat.two_pow_pos n
    omega
  refine ⟨Nat.log2 (available / size), ?_, (Nat.le_log2 h2).2 h1⟩
  unfold maxRetries
  rw [if_neg (by omega), if_neg h2]

/-- The size the storage has after all failures to come. -/
def Build.final (b : Build P) : Nat := b.size * 2 ^ b.failures.count true

/-- An attempt that succeeds or meets a failure. -/
def Tries (attempt : Build P → Outcome (Build P × Option Unit)) : Prop :=
  ∀ b, (∃ t, attempt b = .ok (t, some ()) ∧ t.size = b.size ∧ (t.failures = b.failures ∨ t.failures = b.failures.tail)) ∨
    attempt b = .ok (b.tried, none) ∧ b.fails = true

theorem tries_points (n : Nat) : Tries (P := P) (reservePoints n) := by
  intro b
  unfold reservePoints
  split_ifs with h1 h2
  · exact .inl ⟨_, rfl, rfl, .inl rfl⟩
  · exact .inr ⟨rfl, h2⟩
  · exact .inl ⟨_, rfl, rfl, .inr rfl⟩

theorem tries_segments (n : Nat) : Tries (P := P) (reserveSegments n) := by
  intro b
  unfold reserveSegments
  split_ifs with h1 h2
  · exact .inl ⟨_, rfl, rfl, .inl rfl⟩
  · exact .inr ⟨rfl, h2⟩
  · exact .inl ⟨_, rfl, rfl, .inr rfl⟩

theorem count_tail (l : List Bool) : l.tail.count true ≤ l.count true := (List.tail_sublist l).count_le true

theorem fails_count {l : List Bool} (h : l.headD false = true) : l.count true = l.tail.count true + 1 := by
  cases l with
  | nil => simp at h
  | cons a l => simp only [List.headD_cons] at h; subst h; simp

theorem pow_count_le {s a b : Nat} (h : a ≤ b) : s * 2 ^ a ≤ s * 2 ^ b :=
  Nat.mul_le_mul_left s (Nat.pow_le_pow_right (by omega) h)

theorem success_final {b t : Build P} (h1 : t.size = b.size) (h2 : t.failures = b.failures ∨ t.failures = b.failures.tail) :
    t.final ≤ b.final ∧ t.failures.count true ≤ b.failures.count true := by
  have hc : t.failures.count true ≤ b.failures.count true := by
    rcases h2 with h2 | h2
    · rw [h2]
    · rw [h2]; exact count_tail _
  refine ⟨?_, hc⟩
  unfold Build.final
  rw [h1]
  exact pow_count_le hc

theorem retry_live {attempt : Build P → Outcome (Build P × Option Unit)} (ha : Tries attempt) : ∀ (r : Nat) (b : Build P),
    0 < b.size → b.failures.count true ≤ r → ∃ t, retry attempt growBuild r b = .ok (t, some ()) ∧ 0 < t.size ∧
      t.final ≤ b.final ∧ t.failures.count true ≤ b.failures.count true := by
  intro r
  induction r with
  | zero =>
    intro b hs hc
    rcases ha b with ⟨t, e, h1, h2⟩ | ⟨_, h1⟩
    · rw [retry, e]
      exact ⟨t, rfl, by omega, success_final h1 h2⟩
    · have := fails_count h1; omega
  | succ r ih =>
    intro b hs hc
    rcases ha b with ⟨t, e, h1, h2⟩ | ⟨e, h1⟩
    · rw [retry, e]
      exact ⟨t, rfl, by omega, success_final h1 h2⟩
    · have h2 := fails_count h1
      have hg : (growBuild b.tried).size = 2 * b.size := by
        show growTo b.size (2 * b.size) = _
        unfold growTo
        rw [if_pos (by omega)]
      have hf : (growBuild b.tried).failures = b.failures.tail := rfl
      obtain ⟨t, e2, h3, h4, h5⟩ := ih (growBuild b.tried) (by omega) (by rw [hf]; omega)
      rw [retry, e]
      refine ⟨t, e2, h3, ?_, ?_⟩
      · have : (growBuild b.tried).final = b.final := by
          unfold Build.final
          rw [hg, hf, h2, Nat.pow_succ, Nat.mul_comm 2 b.size, Nat.mul_assoc, Nat.mul_comm 2]
        omega
      · rw [hf] at h5; omega

theorem reserve_live {attempt : Build P → Outcome (Build P × Option Unit)} (ha : Tries attempt) {mapped : Bool} {available : Nat}
    {b : Build P} (hs : 0 < b.size) (hm : b.failures.count true = 0 ∨ mapped = true) (hf : mapped = true → b.final ≤ available) :
    ∃ t, reserve mapped available attempt b = .ok (t, some ()) ∧ 0 < t.size ∧ t.final ≤ b.final ∧
      t.failures.count true ≤ b.failures.count true := by
  unfold reserve
  by_cases h : mapped = true
  · rw [if_pos h]
    obtain ⟨r, e, hr⟩ := maxRetries_ge hs (hf h)
    rw [e, Outcome.bind_ok]
    exact retry_live ha r b hs hr
  · rw [if_neg h]
    rcases ha b with ⟨t, e, h1, h2⟩ | ⟨_, h1⟩
    · exact ⟨t, e, by omega, success_final h1 h2⟩
    · have := fails_count h1
      rcases hm with hm | hm
      · omega
      · exact absurd hm h

theorem gather_live {mapped : Bool} {available : Nat} (verts : List P) (edges : List (List P)) {size : Nat} {failures : List Bool}
    (hs : 0 < size) (hm : failures.count true = 0 ∨ mapped = true)
    (hf : mapped = true → size * 2 ^ failures.count true ≤ available) :
    ∃ t, gather mapped available verts edges (Build.new size failures) = .ok (t, some ()) ∧ 0 < t.size ∧
      t.size ≤ size * 2 ^ failures.count true := by
  unfold gather
  obtain ⟨t1, e1, p1, f1, c1⟩ := reserve_live (tries_points (P := P) verts.length) (b := Build.new size failures) hs hm hf
  have hroom := reserve_points_spec mapped available verts.length (Build.new (P := P) size failures)
  rw [e1] at hroom
  rcases hroom with ⟨h, _⟩ | ⟨t, o, h, q1, q2, q3⟩
  · simp at h
  rw [Outcome.ok.injEq, Prod.mk.injEq] at h
  obtain ⟨rfl, rfl⟩ := h
  rw [e1, andThen_ok, addAll_points _ _ _ (by rw [q1, pointsFrom_length]; simpa [Build.new] using q3 rfl), andThen_ok]
  obtain ⟨t2, e2, p2, f2, c2⟩ := reserve_live (tries_segments (P := P) (countSegments edges)) (mapped := mapped)
    (available := available) (b := { t1 with points := t1.points ++ pointsFrom 0 verts }) p1
    (hm.imp (fun h => by
      have : t1.failures.count true ≤ failures.count true := c1
      show t1.failures.count true = 0
      omega) id) (fun h => by
      have h1 := hf h
      have h2 : t1.final ≤ size * 2 ^ failures.count true := f1
      show t1.final ≤ available
      omega)
  have hroom2 := reserve_segments_spec mapped available (countSegments edges) { t1 with points := t1.points ++ pointsFrom 0 verts }
  rw [e2] at hroom2
  rcases hroom2 with ⟨h, _⟩ | ⟨t, o, h, r1, r2, r3⟩
  · simp at h
  rw [Outcome.ok.injEq, Prod.mk.injEq] at h
  obtain ⟨rfl, rfl⟩ := h
  have hsg : t2.segments = [] := by rw [r2]; exact q2
  rw [e2, andThen_ok, addAll_segments _ _ _ (by rw [hsg, countSegments_eq]; simpa using r3 rfl)]
  refine ⟨_, rfl, p2, ?_⟩
  show t2.size ≤ _
  have h1 : t2.final ≤ size * 2 ^ failures.count true := Nat.le_trans f2 f1
  have h2 : t2.size ≤ t2.final := Nat.le_mul_of_pos_right _ (Nat.two_pow_pos _)
  omega

/-- The size the storage has after all failures to come. -/
def Index.final (x : Index P) : Nat := x.size * 2 ^ x.failures.count true

theorem buildBoth_live (mapped : Bool) (b : Build P) (x : Index P) (hx : x.points = none ∧ x.segments = none) :
    (∃ t, buildBoth mapped b x = .ok (t, some ())) ∨
    ∃ t, buildBoth mapped b x = .ok (t, none) ∧ t.size = x.size ∧ t.failures.count true + 1 ≤ x.failures.count true := by
  obtain ⟨hp, hs⟩ := hx
  unfold buildBoth buildPoints
  rw [if_neg (by simp [hp])]
  by_cases h1 : x.failures.headD false = true
  · rw [if_pos h1, andThen_bad]
    have := fails_count h1
    refine .inr ⟨_, rfl, rfl, ?_⟩
    show x.failures.tail.count true + 1 ≤ _
    omega
  · rw [if_neg h1, andThen_ok]
    unfold buildSegments
    rw [if_neg (by simp [hs])]
    simp only
    by_cases h2 : x.failures.tail.headD false = true
    · rw [if_pos h2]
      have := fails_count h2
      have h3 := count_tail x.failures
      refine .inr ⟨_, rfl, rfl, ?_⟩
      show x.failures.tail.tail.count true + 1 ≤ _
      omega
    · rw [if_neg h2]
      exact .inl ⟨_, rfl⟩

theorem retry_build_live (b : Build P) : ∀ (r : Nat) (x : Index P), x.points = none ∧ x.segments = none →
    x.failures.count true ≤ r → ∃ t, retry (buildBoth true b) dropGrow r x = .ok (t, some ()) := by
  intro r
  induction r with
  | zero =>
    intro x hx hc
    rcases buildBoth_live true b x hx with ⟨t, e⟩ | ⟨t, e, _, h⟩
    · rw [retry, e]; exact ⟨t, rfl⟩
    · omega
  | succ r ih =>
    intro x hx hc
    rcases buildBoth_live true b x hx with ⟨t, e⟩ | ⟨t, e, _, h⟩
    · rw [retry, e]; exact ⟨t, rfl⟩
    · rw [retry, e]
      exact ih (dropGrow t) ⟨rfl, rfl⟩ (by show t.failures.count true ≤ r; omega)

/-- **C83, failures are made good.**  In memory no allocation may fail; in mapped storage allocations may fail as long as the
space on disk suffices for doubling the storage as often: then the building of the indices returns, and they are complete. -/
theorem index_built {mapped mappedBuild : Bool} {available : Nat} (verts : List P) (edges : List (List P))
    {buildSize indexSize : Nat} {fb fi : List Bool} (hb : 0 < buildSize) (hi : 0 < indexSize)
    (hmb : fb.count true = 0 ∨ mappedBuild = true) (hmi : fi.count true = 0 ∨ mapped = true)
    (hfree : max indexSize (4 * (buildSize * 2 ^ fb.count true)) * 2 ^ fi.count true ≤ available) :
    ∃ x, buildSpatial mapped mappedBuild available verts edges (Build.new buildSize fb) (Index.new indexSize fi) =
      .ok (x, some ()) ∧ Complete verts edges x := by
  have hmax : max indexSize (4 * (buildSize * 2 ^ fb.count true)) ≤ available :=
    Nat.le_trans (Nat.le_mul_of_pos_right _ (Nat.two_pow_pos _)) hfree
  obtain ⟨t, e, h1, h2⟩ := gather_live (mapped := mappedBuild) (available := available) verts edges hb hmb (fun _ => by
    generalize buildSize * 2 ^ fb.count true = z at *
    omega)
  have hx : ∃ x, buildIndices mapped mappedBuild available t (Index.new indexSize fi) = .ok (x, some ()) := by
    unfold buildIndices
    by_cases hm : mapped = true
    · rw [if_pos hm]
      have hg : ∃ g, growTo (Index.new (P := P) indexSize fi).size (if mappedBuild = true then 2 * t.size else 2 * (2 * t.size)) = g ∧
          0 < g ∧ g ≤ max indexSize (4 * (buildSize * 2 ^ fb.count true)) := by
        refine ⟨_, rfl, ?_⟩
        show 0 < growTo indexSize _ ∧ growTo indexSize _ ≤ _
        generalize buildSize * 2 ^ fb.count true = z at *
        unfold growTo
        split_ifs <;> omega
      obtain ⟨g, hg1, hg2, hg3⟩ := hg
      rw [hg1]
      obtain ⟨r, hr1, hr2⟩ := maxRetries_ge (n := fi.count true) hg2 (Nat.le_trans (Nat.mul_le_mul_right _ hg3) hfree)
      rw [hr1, Outcome.bind_ok]
      exact retry_build_live t r _ ⟨rfl, rfl⟩ hr2
    · rw [if_neg hm]
      rcases buildBoth_live false t (Index.new indexSize fi) ⟨rfl, rfl⟩ with h | ⟨_, _, _, h⟩
      · exact h
      · have h3 : fi.count true = 0 := hmi.resolve_right hm
        have h4 : (Index.new (P := P) indexSize fi).failures = fi := rfl
        rw [h4] at h
        omega
  obtain ⟨x, hx⟩ := hx
  have hall : buildSpatial mapped mappedBuild available verts edges (Build.new buildSize fb) (Index.new indexSize fi) = .ok (x, some ()) := by
    unfold buildSpatial
    rw [e, Outcome.bind_ok]
    exact hx
  refine ⟨x, hall, ?_⟩
  rcases index_complete mapped mappedBuild available verts edges buildSize indexSize fb fi with ⟨h, _⟩ | ⟨x', o, h, h'⟩
  · rw [hall] at h; simp at h
  · rw [hall, Outcome.ok.injEq, Prod.mk.injEq] at h
    obtain ⟨rfl, rfl⟩ := h
    exact h' rfl

/-- Three vertices and two edges; the first allocation of the collection, and those of the index of points and, in the second
attempt, of segments fail. -/
example : ∃ x, buildSpatial true true 64 [0, 5, 9] [[0, 3, 5], [5, 9]] (Build.new 1 [true]) (Index.new 2 [true, false, true]) =
      .ok (x, some ()) ∧ Complete [0, 5, 9] [[0, 3, 5], [5, 9]] x :=
  index_built _ _ (by decide) (by decide) (.inr rfl) (.inr rfl) (by decide)

example : (buildSpatial true true 64 [0, 5, 9] [[0, 3, 5], [5, 9]] (Build.new 1 [true]) (Index.new 2 [true, false, true])).map Prod.fst =
    .ok ⟨some [(0, 0), (5, 1), (9, 2)], some [((0, 3), (0, 0)), ((3, 5), (0, 1)), ((5, 9), (1, 0))], 16, []⟩ := by
  decide +kernel

/-- **C83, false in general.**  In mapped storage with less free space than the storage has already, the number of retries is
undefined, although no allocation would fail. -/
theorem free_space_fails : ∃ (verts : List Int) (edges : List (List Int)),
    buildSpatial true true 63 verts edges (Build.new 64 []) (Index.new 64 []) = .ub :=
  ⟨[0, 5], [[0, 5]], by decide +kernel⟩

/-! ### Queries -/

/-- **C83, identifiers.**  Exactly the numbers of the vertices (edges) with the identifier are found, in order. -/
theorem find_id (id : Nat) (ids : List Nat) : (∀ v, v ∈ findId id 0 ids ↔ ids[v]? = some id) ∧ (findId id 0 ids).Pairwise (· < ·) := by
  have hgen : ∀ (ids : List Nat) (i : Nat), (∀ v, v ∈ findId id i ids ↔ i ≤ v ∧ ids[v - i]? = some id) ∧
      (findId id i ids).Pairwise (· < ·) := by
    intro ids
    induction ids with
    | nil => intro i; simp [findId]
    | cons x xs ih =>
      intro i
      obtain ⟨h1, h2⟩ := ih (i + 1)
      have hm : ∀ v, (i + 1 ≤ v ∧ xs[v - (i + 1)]? = some id) ∨ (v = i ∧ x = id) ↔ i ≤ v ∧ (x :: xs)[v - i]? = some id := by
        intro v
        by_cases hv : v = i
        · subst hv
          simp only [Nat.sub_self, List.getElem?_cons_zero, Option.some.injEq]
          constructor
          · rintro (⟨h, _⟩ | ⟨_, h⟩)
            · omega
            · exact ⟨Nat.le_refl _, h⟩
          · rintro ⟨_, h⟩; exact .inr ⟨trivial, h⟩
        · constructor
          · rintro (⟨h, h'⟩ | ⟨h, _⟩)
            · refine ⟨by omega, ?_⟩
              rw [show v - i = (v - (i + 1)) + 1 by omega, List.getElem?_cons_succ]
              exact h'
            · exact absurd h hv
          · rintro ⟨h, h'⟩
            rw [show v - i = (v - (i + 1)) + 1 by omega, List.getElem?_cons_succ] at h'
            exact .inl ⟨by omega, h'⟩
      unfold findId
      split_ifs with hx
      · refine ⟨fun v => ?_, ?_⟩
        · rw [List.mem_cons, h1, ← hm]
          constructor
          · rintro (h | h)
            · exact .inr ⟨h, hx⟩
            · exact .inl h
          · rintro (h | ⟨h, _⟩)
            · exact .inr h
            · exact .inl h
        · rw [List.pairwise_cons]
          refine ⟨fun v hv => ?_, h2⟩
          have := ((h1 v).1 hv).1
          omega
      · refine ⟨fun v => ?_, h2⟩
        rw [h1, ← hm]
        constructor
        · exact .inl
        · rintro (h | ⟨_, h⟩)
          · exact h
          · exact absurd h hx
  have := hgen ids 0
  simpa using this

example : findId 7 0 [7, 3, 7] = [0, 2] := by decide

/-- What is asked of an R-tree: `k` values (or all), taken from those it holds, none of the others nearer. -/
structure Nearest {V R : Type} [LinearOrder R] (dist : V → R) (k : Nat) (all res : List V) : Prop where
  sub : res.Subperm all
  count : res.length = min k all.length
  least : ∀ x ∈ res, ∀ y ∈ all, y ∉ res → dist x ≤ dist y

variable [DecidableEq P] {R : Type} [LinearOrder R] [Zero R]

theorem nearest_one {V : Type} {dist : V → R} {all res : List V} (h : Nearest dist 1 all res) :
    (all = [] ∧ res = []) ∨ ∃ x, x ∈ all ∧ res = [x] ∧ ∀ y ∈ all, dist x ≤ dist y := by
  cases all with
  | nil =>
    left
    exact ⟨rfl, List.length_eq_zero_iff.1 (by rw [h.count]; rfl)⟩
  | cons a all =>
    right
    have h1 : res.length = 1 := by rw [h.count, List.length_cons]; omega
    obtain ⟨x, rfl⟩ := List.length_eq_one_iff.1 h1
    refine ⟨x, h.sub.subset (List.mem_singleton_self x), rfl, fun y hy => ?_⟩
    by_cases hxy : y = x
    · rw [hxy]
    · exact h.least x (List.mem_singleton_self x) y hy (by simpa using hxy)

/-- **C83, points of vertices.**  A point is found among the vertices if and only if some vertex is there, and the vertex
returned is one that is there. -/
theorem point_in_nodes {verts : List P} {edges : List (List P)} {x : Index P} (hx : Complete verts edges x) (d : P → P → R)
    (h0 : ∀ a b, 0 ≤ d a b) (hd : ∀ a b, d a b = 0 ↔ a = b) (p : P) {ps res : List (PointEntry P)} (hps : x.points = some ps)
    (hr : Nearest (fun e => d p e.1) 1 ps res) :
    ((pointInNodes res p).1 = true ↔ p ∈ verts) ∧ ((pointInNodes res p).1 = true → verts[(pointInNodes res p).2]? = some p) := by
  obtain ⟨ps', h1, _, h2⟩ := hx.points
  rw [hps, Option.some.injEq] at h1
  subst h1
  rcases nearest_one hr with ⟨h3, h4⟩ | ⟨y, h3, h4, h5⟩
  · subst h4
    refine ⟨?_, by simp [pointInNodes]⟩
    simp only [pointInNodes, Bool.false_eq_true, false_iff]
    intro hp
    obtain ⟨v, hv⟩ := List.getElem?_of_mem hp
    have := (h2 p v).2 hv
    rw [h3] at this
    simp at this
  · subst h4
    simp only [pointInNodes, decide_eq_true_eq]
    have hy := (h2 y.1 y.2).1 h3
    refine ⟨⟨fun h => ?_, fun hp => ?_⟩, fun h => by rw [← h]; exact hy⟩
    · rw [← h]; exact List.mem_of_getElem? hy
    · obtain ⟨v, hv⟩ := List.getElem?_of_mem hp
      have h6 := h5 _ ((h2 p v).2 hv)
      simp only [(hd p p).2 rfl] at h6
      exact ((hd p y.1).1 (le_antisymm h6 (h0 _ _))).symm

/-- The indices of a network with vertices at 0, 5 and 9 and two edges. -/
def sampleIndex : Index Int :=
  ⟨some [(0, 0), (5, 1), (9, 2)], some [((0, 3), (0, 0)), ((3, 5), (0, 1)), ((5, 9), (1, 0))], 16, []⟩

theorem sampleIndex_complete : Complete [0, 5, 9] [[0, 3, 5], [5, 9]] sampleIndex := by
  obtain ⟨x, h1, h2⟩ := index_built (mapped := false) (mappedBuild := false) (available := 64) (P := Int) [0, 5, 9]
    [[0, 3, 5], [5, 9]] (buildSize := 1) (indexSize := 16) (fb := []) (fi := []) (by decide) (by decide) (.inl rfl) (.inl rfl)
    (by decide)
  have h3 : buildSpatial false false 64 [0, 5, 9] [[0, 3, 5], [5, 9]] (Build.new 1 []) (Index.new 16 []) =
      .ok (sampleIndex, some ()) := by decide +kernel
  rw [h3, Outcome.ok.injEq, Prod.mk.injEq] at h1
  rw [h1.1]
  exact h2

theorem nearest_of_decide {V R : Type} [LinearOrder R] [DecidableEq V] {dist : V → R} {k : Nat} {all res : List V}
    (h1 : res.Nodup) (h2 : res ⊆ all) (h3 : res.length = min k all.length)
    (h4 : ∀ x ∈ res, ∀ y ∈ all, y ∉ res → dist x ≤ dist y) : Nearest dist k all res :=
  ⟨List.subperm_of_subset h1 h2, h3, h4⟩

/-- 5 is a vertex, the one with number 1; 6 is none, the nearest is not there. -/
example : ((pointInNodes [((5 : Int), 1)] 5).1 = true ↔ (5 : Int) ∈ [0, 5, 9]) ∧ ((pointInNodes [((5 : Int), 1)] 6).1 = true ↔ (6 : Int) ∈ [0, 5, 9]) :=
  ⟨(point_in_nodes sampleIndex_complete (fun a b => |a - b|) (fun _ _ => abs_nonneg _) (fun a b => by rw [abs_eq_zero, sub_eq_zero]) 5
    rfl (nearest_of_decide (by decide) (by decide) rfl (by decide))).1,
   (point_in_nodes sampleIndex_complete (fun a b => |a - b|) (fun _ _ => abs_nonneg _) (fun a b => by rw [abs_eq_zero, sub_eq_zero]) 6
    rfl (nearest_of_decide (by decide) (by decide) rfl (by decide))).1⟩

/-- **C83, points of edges.**  If a point is found among those of the edges, it is an end of the segment named, of the edge
named.  If it is not found although it is a point of an edge, some other segment passes through it.
(A point in the middle of another segment may hide a point of an edge, `point_in_edges_fails`.) -/
theorem point_in_edges_partial {verts : List P} {edges : List (List P)} {x : Index P} (hx : Complete verts edges x)
    (d : P → P × P → R) (h0 : ∀ p s, 0 ≤ d p s) (hd : ∀ a b, d a (a, b) = 0 ∧ d b (a, b) = 0) (p : P)
    {ss res : List (SegEntry P)} (hss : x.segments = some ss) (hr : Nearest (fun e => d p e.1) 1 ss res) :
    ((pointInEdges res p).1 = true → ∃ l, edges[(pointInEdges res p).2.1]? = some l ∧
      (l[(pointInEdges res p).2.2]? = some p ∨ l[(pointInEdges res p).2.2 + 1]? = some p)) ∧
    ((pointInEdges res p).1 = false → ∀ l ∈ edges, 2 ≤ l.length → p ∈ l →
      ∃ l' ∈ edges, ∃ s ∈ segs l', d p s = 0 ∧ s.1 ≠ p ∧ s.2 ≠ p) := by
  obtain ⟨ss', h1, _, h2⟩ := hx.segments
  rw [hss, Option.some.injEq] at h1
  subst h1
  have hin : ∀ l ∈ edges, 2 ≤ l.length → p ∈ l → ∃ e ∈ ss, d p e.1 = 0 := by
    intro l hl hlen hp
    obtain ⟨e, he⟩ := List.getElem?_of_mem hl
    obtain ⟨i, hi, hi2⟩ := List.getElem_of_mem hp
    by_cases hlast : i + 1 < l.length
    · refine ⟨((p, l[i + 1]), (e, i)), (h2 _ _ _ _).2 ⟨l, he, ?_, ?_⟩, (hd _ _).1⟩
      · rw [List.getElem?_eq_getElem hi, hi2]
      · rw [List.getElem?_eq_getElem hlast]
    · refine ⟨((l[i - 1], p), (e, i - 1)), (h2 _ _ _ _).2 ⟨l, he, ?_, ?_⟩, (hd _ _).2⟩
      · rw [List.getElem?_eq_getElem (by omega)]
      · rw [show i - 1 + 1 = i by omega, List.getElem?_eq_getElem hi, hi2]
  rcases nearest_one hr with ⟨h3, h4⟩ | ⟨y, h3, h4, h5⟩
  · subst h4
    refine ⟨by simp [pointInEdges], fun _ l hl hlen hp => ?_⟩
    obtain ⟨e, he, _⟩ := hin l hl hlen hp
    rw [h3] at he
    simp at he
  · subst h4
    obtain ⟨⟨a, b⟩, e, i⟩ := y
    obtain ⟨l, hl1, hl2, hl3⟩ := (h2 a b e i).1 h3
    simp only [pointInEdges, Bool.or_eq_true, decide_eq_true_eq, Bool.or_eq_false_iff, decide_eq_false_iff_not]
    refine ⟨?_, ?_⟩
    · rintro (rfl | rfl)
      · exact ⟨l, hl1, .inl hl2⟩
      · exact ⟨l, hl1, .inr hl3⟩
    · rintro ⟨ha, hb⟩ l' hl' hlen hp
      obtain ⟨f, hf, hf2⟩ := hin l' hl' hlen hp
      have h6 := h5 f hf
      rw [hf2] at h6
      refine ⟨l, List.mem_of_getElem? hl1, (a, b), ?_, le_antisymm h6 (h0 _ _), ha, hb⟩
      exact List.mem_of_getElem? ((segs_getElem? l i a b).2 ⟨hl2, hl3⟩)

/-- Distance of a number from a stretch of numbers. -/
def stretch (p : Int) (s : Int × Int) : Int := max 0 (max (min s.1 s.2 - p) (p - max s.1 s.2))

theorem stretch_ends (a b : Int) : stretch a (a, b) = 0 ∧ stretch b (a, b) = 0 := by
  unfold stretch
  simp only
  omega

/-- 3 is a point of the first edge, an end of its second segment. -/
example : (pointInEdges [(((3 : Int), (5 : Int)), (0, 1))] 3) = (true, (0, 1)) ∧
    ∃ l, [[(0 : Int), 3, 5], [5, 9]][0]? = some l ∧ (l[1]? = some 3 ∨ l[2]? = some 3) :=
  ⟨rfl, (point_in_edges_partial sampleIndex_complete stretch (fun _ _ => le_max_left _ _) stretch_ends 3 (res := [((3, 5), (0, 1))])
    rfl (nearest_of_decide (by decide) (by decide) rfl (by decide))).1 rfl⟩

/-- **C83, false in general.**  On the line of numbers, edges 0 - 10 and 4 - 6: 4 is a point of an edge, but the nearest segment
found may be that of the first edge. -/
theorem point_in_edges_fails : ∃ (edges : List (List Int)) (res : List (SegEntry Int)), (4 : Int) ∈ [4, 6] ∧ [4, 6] ∈ edges ∧
    Nearest (fun e => stretch 4 e.1) 1 (edgesFrom 0 edges) res ∧ (pointInEdges res 4).1 = false := by
  refine ⟨[[0, 10], [4, 6]], [((0, 10), (0, 0))], by decide, by decide, ⟨?_, rfl, ?_⟩, by decide⟩
  · rw [List.singleton_subperm_iff]; decide
  · intro x hx y hy _
    simp only [List.mem_singleton] at hx
    subst hx
    revert y
    decide

theorem mem_insert (e : Nat) (l : List Nat) (y : Nat) : y ∈ insert e l ↔ y = e ∨ y ∈ l := by
  induction l with
  | nil => simp [insert]
  | cons x l ih =>
    unfold insert
    split_ifs with h1 h2
    · simp
    · subst h2; simp
    · rw [List.mem_cons, ih, List.mem_cons]
      constructor
      · rintro (h | h | h)
        · exact .inr (.inl h)
        · exact .inl h
        · exact .inr (.inr h)
      · rintro (h | h | h)
        · exact .inr (.inl h)
        · exact .inl h
        · exact .inr (.inr h)

theorem insert_sorted (e : Nat) {l : List Nat} (h : l.Pairwise (· < ·)) : (insert e l).Pairwise (· < ·) := by
  induction l with
  | nil => simp [insert]
  | cons x l ih =>
    rw [List.pairwise_cons] at h
    unfold insert
    split_ifs with h1 h2
    · rw [List.pairwise_cons]
      refine ⟨fun y hy => ?_, List.pairwise_cons.2 h⟩
      rcases List.mem_cons.1 hy with rfl | hy
      · exact h1
      · exact Nat.lt_trans h1 (h.1 y hy)
    · exact List.pairwise_cons.2 h
    · rw [List.pairwise_cons]
      refine ⟨fun y hy => ?_, ih h.2⟩
      rcases (mem_insert e l y).1 hy with rfl | hy
      · omega
      · exact h.1 y hy

theorem unique_spec (res : List (SegEntry P)) : (∀ e, e ∈ unique res ↔ ∃ r ∈ res, r.2.1 = e) ∧ (unique res).Pairwise (· < ·) := by
  have hgen : ∀ (res : List (SegEntry P)) (acc : List Nat), acc.Pairwise (· < ·) →
      (∀ e, e ∈ res.foldl (fun acc r => insert r.2.1 acc) acc ↔ e ∈ acc ∨ ∃ r ∈ res, r.2.1 = e) ∧
      (res.foldl (fun acc r => insert r.2.1 acc) acc).Pairwise (· < ·) := by
    intro res
    induction res with
    | nil => intro acc h; exact ⟨by simp, h⟩
    | cons r res ih =>
      intro acc h
      obtain ⟨h1, h2⟩ := ih (insert r.2.1 acc) (insert_sorted _ h)
      refine ⟨fun e => ?_, h2⟩
      rw [List.foldl_cons, h1, mem_insert]
      simp only [List.mem_cons, exists_eq_or_imp]
      constructor
      · rintro ((h | h) | h)
        · exact .inr (.inl h.symm)
        · exact .inl h
        · exact .inr (.inr h)
      · rintro (h | h | h)
        · exact .inl (.inr h)
        · exact .inl (.inl h.symm)
        · exact .inr h
  have := hgen res [] List.Pairwise.nil
  simpa [unique] using this

/-- **C83, edges within reach.**  The edges returned for a region are exactly those with a segment in it, each once, in the
order of their numbers.  (`inside`: the predicate of the query; the R-tree returns the values for which it holds, in any
order.) -/
theorem edges_found {verts : List P} {edges : List (List P)} {x : Index P} (hx : Complete verts edges x) (inside : P × P → Bool)
    {ss res : List (SegEntry P)} (hss : x.segments = some ss) (hr : res.Perm (ss.filter fun e => inside e.1)) :
    (∀ e, e ∈ unique res ↔ ∃ l, edges[e]? = some l ∧ ∃ s ∈ segs l, inside s = true) ∧ (unique res).Pairwise (· < ·) := by
  obtain ⟨ss', h1, _, h2⟩ := hx.segments
  rw [hss, Option.some.injEq] at h1
  subst h1
  refine ⟨fun e => ?_, (unique_spec res).2⟩
  rw [(unique_spec res).1]
  constructor
  · rintro ⟨⟨⟨a, b⟩, f, i⟩, h3, rfl⟩
    obtain ⟨h4, h5⟩ := List.mem_filter.1 (hr.mem_iff.1 h3)
    obtain ⟨l, hl1, hl2, hl3⟩ := (h2 a b f i).1 h4
    exact ⟨l, hl1, (a, b), List.mem_of_getElem? ((segs_getElem? l i a b).2 ⟨hl2, hl3⟩), h5⟩
  · rintro ⟨l, hl, ⟨a, b⟩, hs, hi⟩
    obtain ⟨i, hi2⟩ := List.getElem?_of_mem hs
    obtain ⟨h3, h4⟩ := (segs_getElem? l i a b).1 hi2
    exact ⟨((a, b), (e, i)), hr.mem_iff.2 (List.mem_filter.2 ⟨(h2 a b e i).2 ⟨l, hl, h3, h4⟩, hi⟩), rfl⟩

/-- The stretch from 2 to 4 meets two segments of the first edge: one edge. -/
example : ∀ e, e ∈ unique [(((3 : Int), (5 : Int)), (0, 1)), ((0, 3), (0, 0))] ↔
    ∃ l, [[(0 : Int), 3, 5], [5, 9]][e]? = some l ∧ ∃ s ∈ segs l, (decide (s.1 ≤ 4) && decide (2 ≤ s.2)) = true :=
  (edges_found sampleIndex_complete (fun s => decide (s.1 ≤ 4) && decide (2 ≤ s.2)) rfl (List.Perm.swap _ _ _)).1

/-- **C83, nearest edges.**  For the `k` nearest, every edge returned exists, there are at most `k`, and no edge left out has a
segment nearer than all segments chosen. -/
theorem edges_nearest_partial {verts : List P} {edges : List (List P)} {x : Index P} (hx : Complete verts edges x)
    (d : P × P → R) (k : Nat) {ss res : List (SegEntry P)} (hss : x.segments = some ss)
    (hr : Nearest (fun e => d e.1) k ss res) :
    (∀ e ∈ unique res, ∃ l, edges[e]? = some l) ∧ (unique res).length ≤ k ∧ (unique res).Pairwise (· < ·) ∧
    ∀ e l, edges[e]? = some l → e ∉ unique res → ∀ s ∈ segs l, ∀ r ∈ res, d r.1 ≤ d s := by
  obtain ⟨ss', h1, _, h2⟩ := hx.segments
  rw [hss, Option.some.injEq] at h1
  subst h1
  refine ⟨fun e he => ?_, ?_, (unique_spec res).2, ?_⟩
  · obtain ⟨⟨⟨a, b⟩, f, i⟩, h3, rfl⟩ := ((unique_spec res).1 e).1 he
    obtain ⟨l, hl, _⟩ := (h2 a b f i).1 (hr.sub.subset h3)
    exact ⟨l, hl⟩
  · have hsub : (unique res).Subperm (res.map fun r => r.2.1) := by
      refine List.subperm_of_subset ((unique_spec res).2.imp (fun h => Nat.ne_of_lt h)) ?_
      intro e he
      obtain ⟨r, h3, h4⟩ := ((unique_spec res).1 e).1 he
      exact List.mem_map.2 ⟨r, h3, h4⟩
    have := hsub.length_le
    rw [List.length_map, hr.count] at this
    omega
  · rintro e l hl he ⟨a, b⟩ hs r hr2
    obtain ⟨i, hi⟩ := List.getElem?_of_mem hs
    obtain ⟨h3, h4⟩ := (segs_getElem? l i a b).1 hi
    refine hr.least r hr2 ((a, b), (e, i)) ((h2 a b e i).2 ⟨l, hl, h3, h4⟩) ?_
    intro hc
    exact he (((unique_spec res).1 e).2 ⟨_, hc, rfl⟩)

/-- The nearest to 4 of the sample. -/
example : (unique [(((3 : Int), (5 : Int)), (0, 1))]).length ≤ 1 ∧
    ∀ e l, [[(0 : Int), 3, 5], [5, 9]][e]? = some l → e ∉ unique [(((3 : Int), (5 : Int)), (0, 1))] → ∀ s ∈ segs l,
      ∀ r ∈ [(((3 : Int), (5 : Int)), ((0 : Nat), (1 : Nat)))], stretch 4 r.1 ≤ stretch 4 s :=
  have h := edges_nearest_partial sampleIndex_complete (stretch 4) 1 (res := [((3, 5), (0, 1))]) rfl
    (nearest_of_decide (by decide) (by decide) rfl (by decide))
  ⟨h.2.1, h.2.2.2⟩

/-- **C83, false in general.**  Asked for the two nearest edges, only one may be returned, although there are two: both nearest
segments may be of the same edge. -/
theorem edges_nearest_fails : ∃ (edges : List (List Int)) (res : List (SegEntry Int)), edges.length = 2 ∧
    Nearest (fun e => stretch 4 e.1) 2 (edgesFrom 0 edges) res ∧ unique res = [0] := by
  refine ⟨[[0, 4, 8], [9, 12]], [((0, 4), (0, 0)), ((4, 8), (0, 1))], rfl, ⟨?_, rfl, ?_⟩, by decide⟩
  · exact List.subperm_of_subset (by decide) (by decide)
  · intro x hx y hy _
    revert y
    revert x
    decide

/-- **C83, points of a region.**  Both ends of every segment found, in order. -/
theorem both_ends (res : List (SegEntry P)) : (bothEnds res).length = 2 * res.length ∧
    ∀ p, p ∈ bothEnds res ↔ ∃ r ∈ res, p = r.1.1 ∨ p = r.1.2 := by
  refine ⟨?_, fun p => by simp [bothEnds]⟩
  induction res with
  | nil => rfl
  | cons r res ih => simp only [bothEnds, List.flatMap_cons, List.length_append, List.length_cons, List.length_nil] at *; omega

end MM.IndexBuild
