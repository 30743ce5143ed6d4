import Verif.Model.ExportEdges
import Verif.Props.RouteValues
import Mathlib.Algebra.Order.Ring.Abs
import Mathlib.Tactic.Linarith
import Mathlib.Tactic.Ring
import Mathlib.Tactic.NormNum
import Mathlib.Data.Rat.Defs
import Mathlib.Algebra.Order.Ring.Rat
import Mathlib.Data.List.Forall2

/-!
# C68: exported edges
-/

set_option autoImplicit false
set_option linter.unusedSectionVars false

namespace MM.ExportEdges

open MM.Line MM.Route

variable {P : Type} [DecidableEq P] {R : Type} [Field R] [LinearOrder R] [IsStrictOrderedRing R]

/-! ### What is meant -/

/-- Segment `s` belongs to edge number `i`. -/
def BelongsTo (es : List (Edge P)) (s : P × P) (i : Nat) : Prop := ∃ e, es[i]? = some e ∧ s ∈ segs e.line

/-- The index answers with exactly the segments of edges that touch the given one. -/
def Answers (touch : P × P → P × P → Prop) (es : List (Edge P)) (hits : P × P → List (Entry P)) : Prop :=
  ∀ s t i, (t, i) ∈ hits s ↔ BelongsTo es t i ∧ touch s t

/-- The angle between two azimuths. -/
def between (a b : R) : R := min |a - b| (360 - |a - b|)

/-- The segment is a segment of this edge and of no other one. -/
def Own (es : List (Edge P)) (s : P × P) (i : Nat) : Prop := BelongsTo es s i ∧ ∀ j, BelongsTo es s j → j = i

/-- The segment is no segment of an edge, but among those that touch it, one of this edge has the direction closest to it. -/
def Closest (touch : P × P → P × P → Prop) (az : P × P → R) (es : List (Edge P)) (s : P × P) (i : Nat) : Prop :=
  (∀ j, ¬ BelongsTo es s j) ∧ ∃ t, BelongsTo es t i ∧ touch s t ∧
    ∀ t' j, BelongsTo es t' j → touch s t' → j ≠ i → between (az s) (az t) < between (az s) (az t')

/-- A segment of a route lies on an edge, recognisably. -/
def On (touch : P × P → P × P → Prop) (az : P × P → R) (es : List (Edge P)) (s : P × P) (i : Nat) : Prop :=
  Own es s i ∨ Closest touch az es s i

/-- The segments of a route that have a length. -/
def steps (ls : List (List P)) : List (P × P) := (ls.flatMap segs).filter fun s => decide (s.1 ≠ s.2)

/-- Immediate repetitions left out. -/
def heads {α : Type} [DecidableEq α] : List α → List α
  | a :: b :: l => if a = b then heads (b :: l) else a :: heads (b :: l)
  | l => l

/-! ### The index -/

theorem mem_entriesFrom (es : List (Edge P)) : ∀ (n : Nat) (t : P × P) (i : Nat),
    (t, i) ∈ entriesFrom n es ↔ ∃ k, i = n + k ∧ BelongsTo es t k := by
  induction es with
  | nil => intro n t i; simp [entriesFrom, BelongsTo]
  | cons e es ih =>
    intro n t i
    rw [entriesFrom, List.mem_append, ih]
    constructor
    · rintro (h | ⟨k, hk, hb⟩)
      · obtain ⟨s, hs, heq⟩ := List.mem_map.1 h
        injection heq with h1 h2
        subst h1
        exact ⟨0, by omega, e, rfl, hs⟩
      · exact ⟨k + 1, by omega, by simpa [BelongsTo] using hb⟩
    · rintro ⟨k, hk, hb⟩
      cases k with
      | zero =>
        left
        obtain ⟨e', he, hs⟩ := hb
        simp at he
        subst he
        exact List.mem_map.2 ⟨t, hs, by simp [hk]⟩
      | succ k => exact Or.inr ⟨k, by omega, by simpa [BelongsTo] using hb⟩

/-- The index of segments is built from exactly the segments of the edges. -/
theorem index_complete (es : List (Edge P)) (t : P × P) (i : Nat) : (t, i) ∈ entries es ↔ BelongsTo es t i := by
  rw [entries, mem_entriesFrom]
  constructor
  · rintro ⟨k, hk, hb⟩; rw [Nat.zero_add] at hk; rw [hk]; exact hb
  · intro h; exact ⟨i, by omega, h⟩

example : entries [⟨7, [0, 1, 2]⟩, ⟨8, []⟩, ⟨9, [2, 3]⟩] = [((0, 1), 0), ((1, 2), 0), ((2, 3), 2)] := by decide

/-- A query that returns the entries that touch, in the order in which they were added, answers. -/
theorem answers_filter (touch : P × P → P × P → Prop) [∀ s t, Decidable (touch s t)] (es : List (Edge P)) :
    Answers touch es fun s => (entries es).filter fun e => decide (touch s e.1) := by
  intro s t i
  rw [List.mem_filter, index_complete]
  simp

/-! ### Angles -/

theorem deviation_between (az : P × P → R) (hr : ∀ s t, |az s - az t| ≤ 360) (s t : P × P) :
    deviation az s t = between (az s) (az t) := by
  have h := hr s t
  unfold deviation between Common.angleDiff
  generalize az s - az t = d at *
  rw [abs_le] at h
  split_ifs with h1 h2
  · rw [abs_of_nonneg (by linarith : (0 : R) ≤ d), abs_of_nonpos (by linarith : d - 360 ≤ 0), min_eq_right (by linarith)]
    ring
  · rw [abs_of_nonpos (by linarith : d ≤ 0), abs_of_nonneg (by linarith : (0 : R) ≤ d + 360), min_eq_right (by linarith)]
    ring
  · rw [min_eq_left]
    have : |d| ≤ 180 := abs_le.2 ⟨by linarith, by linarith⟩
    linarith

theorem deviation_self (az : P × P → R) (s : P × P) : deviation az s s = 0 := by
  have h1 : ¬ (180 : R) ≤ 0 := by norm_num
  simp [deviation, Common.angleDiff, h1]

theorem deviation_nonneg (az : P × P → R) (s t : P × P) : 0 ≤ deviation az s t := abs_nonneg _

/-! ### The edge of a segment -/

/-- What is kept: something is found once an entry was seen; after an entry with the same segment the angle is zero and only
such entries are kept; before that the angle is the least one. -/
theorem fold_better (az : P × P → R) (s : P × P) (l : List (Entry P)) :
    (l = [] ∧ l.foldl (better az s) none = none) ∨
    (∃ b i, l.foldl (better az s) none = some (b, i) ∧
      (((∃ j, (s, j) ∈ l) ∧ b = 0 ∧ (s, i) ∈ l) ∨
        ((∀ j, (s, j) ∉ l) ∧ (∃ t, (t, i) ∈ l ∧ b = deviation az s t) ∧ ∀ t j, (t, j) ∈ l → b ≤ deviation az s t))) := by
  induction l using List.reverseRecOn with
  | nil => left; exact ⟨rfl, rfl⟩
  | append_singleton l e ih =>
    right
    obtain ⟨⟨t, u⟩, k⟩ := e
    rw [List.foldl_append]
    rcases ih with ⟨rfl, h⟩ | ⟨b, i, h, hc⟩
    · rw [h]
      refine ⟨_, _, rfl, ?_⟩
      by_cases hs : s = (t, u)
      · left
        exact ⟨⟨k, by simp [hs]⟩, by rw [← hs]; exact deviation_self az s, by simp [hs]⟩
      · right
        refine ⟨fun j hj => hs (by simpa using (Prod.mk.inj (List.mem_singleton.1 hj)).1), ⟨(t, u), by simp⟩, ?_⟩
        intro t' j hj
        rw [(Prod.mk.inj (List.mem_singleton.1 hj)).1]
    · rw [h]
      simp only [List.foldl_cons, List.foldl_nil, better]
      by_cases hs : s = (t, u)
      · subst hs
        rw [if_pos (Or.inl ⟨rfl, rfl⟩)]
        exact ⟨_, _, rfl, Or.inl ⟨⟨k, by simp⟩, deviation_self az _, by simp⟩⟩
      · have hne : ¬ (s.1 = t ∧ s.2 = u) := fun hh => hs (Prod.ext hh.1 hh.2)
        rcases hc with ⟨⟨j, hj⟩, hb, hi⟩ | ⟨hno, ⟨t0, ht0, hb⟩, hmin⟩
        · rw [if_neg]
          · exact ⟨_, _, rfl, Or.inl ⟨⟨j, List.mem_append_left _ hj⟩, hb, List.mem_append_left _ hi⟩⟩
          · rintro (hh | hh)
            · exact hne hh
            · rw [hb] at hh; exact absurd hh (not_lt.2 (deviation_nonneg az _ _))
        · have hno' : ∀ j, (s, j) ∉ l ++ [((t, u), k)] := by
            intro j hj
            rcases List.mem_append.1 hj with hj | hj
            · exact hno j hj
            · exact hs (Prod.mk.inj (List.mem_singleton.1 hj)).1
          split_ifs with hc2
          · have hlt := hc2.resolve_left hne
            refine ⟨_, _, rfl, Or.inr ⟨hno', ⟨(t, u), by simp⟩, ?_⟩⟩
            intro t' j hj
            rcases List.mem_append.1 hj with hj | hj
            · exact le_trans (le_of_lt hlt) (hmin t' j hj)
            · rw [(Prod.mk.inj (List.mem_singleton.1 hj)).1]
          · refine ⟨_, _, rfl, Or.inr ⟨hno', ⟨t0, List.mem_append_left _ ht0, hb⟩, ?_⟩⟩
            intro t' j hj
            rcases List.mem_append.1 hj with hj | hj
            · exact hmin t' j hj
            · rw [(Prod.mk.inj (List.mem_singleton.1 hj)).1]
              exact not_lt.1 fun hh => hc2 (Or.inr hh)

/-- **C68, one segment.**  The edge found for a segment: an edge that has this segment if there is one; else the edge with a
segment touching it of which the direction deviates least. -/
theorem fitting_edge (az : P × P → R) (hr : ∀ s t, |az s - az t| ≤ 360) {touch : P × P → P × P → Prop}
    (hrefl : ∀ s, touch s s) {es : List (Edge P)} {hits : P × P → List (Entry P)} (h : Answers touch es hits) (s : P × P) :
    match fittingEdge az hits s with
    | none => ∀ t i, BelongsTo es t i → ¬ touch s t
    | some i => ((∃ j, BelongsTo es s j) → BelongsTo es s i) ∧
      ((∀ j, ¬ BelongsTo es s j) → ∃ t, BelongsTo es t i ∧ touch s t ∧
        ∀ t' j, BelongsTo es t' j → touch s t' → between (az s) (az t) ≤ between (az s) (az t')) := by
  have hs : ∀ j, (s, j) ∈ hits s ↔ BelongsTo es s j := fun j => by rw [h s s j]; simp [hrefl s]
  rcases fold_better az s (hits s) with ⟨h1, h2⟩ | ⟨b, i, h1, h2⟩
  · rw [fittingEdge, h2]
    intro t i hb ht
    have := (h s t i).2 ⟨hb, ht⟩
    rw [h1] at this
    simp at this
  · rw [fittingEdge, h1]
    simp only [Option.map_some]
    rcases h2 with ⟨⟨j, hj⟩, -, hi⟩ | ⟨hno, ⟨t, ht, hb⟩, hmin⟩
    · exact ⟨fun _ => (hs i).1 hi, fun hh => absurd ((hs j).1 hj) (hh j)⟩
    · refine ⟨fun ⟨j, hj⟩ => absurd ((hs j).2 hj) (hno j), fun _ => ⟨t, ((h s t i).1 ht).1, ((h s t i).1 ht).2, ?_⟩⟩
      intro t' j hb' ht'
      have := hmin t' j ((h s t' j).2 ⟨hb', ht'⟩)
      rwa [hb, deviation_between az hr, deviation_between az hr] at this

theorem fitting_on (az : P × P → R) (hr : ∀ s t, |az s - az t| ≤ 360) {touch : P × P → P × P → Prop}
    (hrefl : ∀ s, touch s s) {es : List (Edge P)} {hits : P × P → List (Entry P)} (h : Answers touch es hits) {s : P × P}
    {i : Nat} (ho : On touch az es s i) : fittingEdge az hits s = some i := by
  have hf := fitting_edge az hr hrefl h s
  cases hfe : fittingEdge az hits s with
  | none =>
    rw [hfe] at hf
    rcases ho with ⟨hb, -⟩ | ⟨-, t, hb, ht, -⟩
    · exact absurd (hrefl s) (hf s i hb)
    · exact absurd ht (hf t i hb)
  | some k =>
    rw [hfe] at hf
    rcases ho with ⟨hb, hu⟩ | ⟨hno, t, hb, ht, hlt⟩
    · rw [hu k (hf.1 ⟨i, hb⟩)]
    · obtain ⟨t', hb', ht', hmin⟩ := hf.2 hno
      by_contra hk
      have hki : k ≠ i := fun hh => hk (by rw [hh])
      exact absurd (hmin t i hb ht) (not_le.2 (hlt t' k hb' ht' hki))

/-! ### The list of edges -/

theorem multiLine_segs (r : Route P) : ∃ ls, r.multiLine = .ok ls ∧ ls.flatMap segs = r.lines.flatMap segs := by
  obtain ⟨gs, hfl, hch, hm, -⟩ := multi_merge_partial ([] : List (List P)) (lines := nonempty r.lines) (by
    intro a es b hi hes hall _ _
    obtain ⟨x, xs, rfl⟩ := List.exists_cons_of_ne_nil hes
    have hx : x ∈ nonempty r.lines := hi.subset (by simp)
    exact absurd (hall x List.mem_cons_self) (nonempty_all r.lines x hx))
  refine ⟨[] ++ gs.map (fun g => joined (nonempty g)), ?_, ?_⟩
  · rw [Route.multiLine, filter_nonempty]
    exact hm
  · rw [List.nil_append, List.flatMap_map]
    have h1 : ∀ g ∈ gs, segs (joined (nonempty g)) = g.flatMap segs := by
      intro g hg
      rw [segs_joined _ (nonempty_all g) (hch g hg)]
      clear hg
      induction g with
      | nil => rfl
      | cons l g ih =>
        by_cases hl : l = []
        · subst hl; simpa [nonempty, segs] using ih
        · have : nonempty (l :: g) = l :: nonempty g := by simp [nonempty, hl]
          rw [this, List.flatMap_cons, List.flatMap_cons, ih]
    have h2 : ∀ (ls : List (List P)), (nonempty ls).flatMap segs = ls.flatMap segs := by
      intro ls
      induction ls with
      | nil => rfl
      | cons l g ih =>
        by_cases hl : l = []
        · subst hl; simpa [nonempty, segs] using ih
        · have : nonempty (l :: g) = l :: nonempty g := by simp [nonempty, hl]
          rw [this, List.flatMap_cons, List.flatMap_cons, ih]
    rw [← h2, ← hfl]
    clear hm hfl hch h2
    induction gs with
    | nil => rfl
    | cons g gs ih =>
      rw [List.flatMap_cons, List.flatten_cons, List.flatMap_append, h1 g (by simp),
        ih (fun x hx => h1 x (List.mem_cons_of_mem _ hx))]

theorem filterMap_segmentEdge (az : P × P → R) (hits : P × P → List (Entry P)) (l : List (P × P)) :
    l.filterMap (segmentEdge az hits) = (l.filter fun s => decide (s.1 ≠ s.2)).filterMap (fittingEdge az hits) := by
  induction l with
  | nil => rfl
  | cons s l ih =>
    by_cases h : s.1 = s.2
    · have h1 : segmentEdge az hits s = none := by simp [segmentEdge, h]
      rw [List.filterMap_cons_none h1, ih, List.filter_cons_of_neg (by simp [h])]
    · have h1 : segmentEdge az hits s = fittingEdge az hits s := by simp [segmentEdge, h]
      rw [List.filter_cons_of_pos (by simp [h]), List.filterMap_cons, List.filterMap_cons, h1, ih]

theorem heads_cons_head {α : Type} [DecidableEq α] (a : α) (l : List α) : (heads (a :: l)).head? = some a := by
  induction l generalizing a with
  | nil => rfl
  | cons b l ih =>
    rw [heads]
    split_ifs with h
    · rw [h]; exact ih b
    · rfl

theorem foldl_add {α β : Type} [DecidableEq α] (f : β → α) (add : List α → β → List α)
    (hadd : ∀ acc b, add acc b = if acc.getLast? = some (f b) then acc else acc ++ [f b]) (l : List β) :
    ∀ (acc : List α) (a : α), l.foldl add (acc ++ [a]) = acc ++ heads (a :: l.map f) := by
  induction l with
  | nil => intro acc a; simp [heads]
  | cons b l ih =>
    intro acc a
    rw [List.foldl_cons, hadd, List.getLast?_concat, List.map_cons, heads]
    by_cases h : a = f b
    · rw [if_pos (by rw [h]), if_pos h, ih, h]
    · rw [if_neg (by simpa using h), if_neg h, ih, List.append_assoc]
      rfl

theorem foldl_heads {α β : Type} [DecidableEq α] (f : β → α) (add : List α → β → List α)
    (hadd : ∀ acc b, add acc b = if acc.getLast? = some (f b) then acc else acc ++ [f b]) (l : List β) :
    l.foldl add [] = heads (l.map f) := by
  cases l with
  | nil => rfl
  | cons b l =>
    have h0 : add [] b = [] ++ [f b] := by rw [hadd]; simp
    rw [List.foldl_cons, h0, foldl_add f add hadd]
    rfl

theorem heads_id {α : Type} [DecidableEq α] {l : List α} (h : l.IsChain (· ≠ ·)) : heads l = l := by
  induction l with
  | nil => rfl
  | cons a l ih =>
    cases l with
    | nil => rfl
    | cons b l =>
      rw [List.isChain_cons_cons] at h
      rw [heads, if_neg h.1, ih h.2]

/-- **C68.**  Every segment of the route that has a length lies recognisably on an edge: then the list of edges names these
edges in the order of travel, without immediate repetitions.
Missing from the full property: ends of the route where two edges have the same direction (`straight_on_fails`), and an
edge travelled twice in succession (`round_again_fails`). -/
theorem edges_list_partial (az : P × P → R) (hr : ∀ s t, |az s - az t| ≤ 360) {touch : P × P → P × P → Prop}
    (hrefl : ∀ s, touch s s) {es : List (Edge P)} {hits : P × P → List (Entry P)} (h : Answers touch es hits) (r : Route P)
    {path : List Nat} (hp : List.Forall₂ (On touch az es) (steps r.lines) path) :
    edgesList az hits r = .ok (heads path) := by
  obtain ⟨ls, hls, hseg⟩ := multiLine_segs r
  rw [edgesList, hls, Outcome.map_ok, hseg, filterMap_segmentEdge]
  have : (steps r.lines).filterMap (fittingEdge az hits) = path := by
    generalize steps r.lines = l at hp
    induction hp with
    | nil => rfl
    | cons ho _ ih => rw [List.filterMap_cons_some (fitting_on az hr hrefl h ho), ih]
  rw [show (List.filter (fun s => decide (s.1 ≠ s.2)) (List.flatMap segs r.lines)) = steps r.lines from rfl, this,
    foldl_heads id addEdge (fun acc b => rfl), List.map_id]

theorem heads_append_replicate {α : Type} [DecidableEq α] (a : α) (l : List α) (n : Nat) :
    heads (List.replicate (n + 1) a ++ l) = heads (a :: l) := by
  induction n with
  | zero => rfl
  | succ n ih =>
    rw [List.replicate_succ, List.replicate_succ, List.cons_append, List.cons_append, heads, if_pos rfl]
    rw [List.replicate_succ, List.cons_append] at ih
    exact ih

/-- The line of an edge. -/
def lineOf (es : List (Edge P)) (i : Nat) : List P := ((es[i]?).map Edge.line).getD []

/-- **C68, a route along whole edges.**  If the route consists of the lines of edges, no edge directly repeated, and the
segments of these edges belong to no other edge, then exactly these edges are listed, the exported route has the same lines,
and the identifiers are those of the edges in the order of travel without immediate repetitions. -/
theorem edges_path_partial (az : P × P → R) (hr : ∀ s t, |az s - az t| ≤ 360) {touch : P × P → P × P → Prop}
    (hrefl : ∀ s, touch s s) {es : List (Edge P)} {hits : P × P → List (Entry P)} (h : Answers touch es hits) (r : Route P)
    {path : List Nat} (hin : ∀ i ∈ path, i < es.length) (hlines : r.lines = path.map (lineOf es))
    (hlen : ∀ i ∈ path, steps [lineOf es i] ≠ []) (hown : ∀ i ∈ path, ∀ s ∈ steps [lineOf es i], Own es s i)
    (hrep : path.IsChain (· ≠ ·)) :
    edgesList az hits r = .ok path ∧ (exportRoute es path).lines = r.lines ∧ (exportRoute es path).invalid = false ∧
      edgeIds es path = heads (path.filterMap fun i => (es[i]?).map Edge.id) := by
  have hstep : ∀ path : List Nat, steps (path.map (lineOf es)) = path.flatMap fun i => steps [lineOf es i] := by
    intro path
    induction path with
    | nil => rfl
    | cons i path ih =>
      have : steps ((i :: path).map (lineOf es)) = steps [lineOf es i] ++ steps (path.map (lineOf es)) := by
        simp [steps]
      rw [this, ih, List.flatMap_cons]
  refine ⟨?_, ?_, rfl, ?_⟩
  · have hall : List.Forall₂ (On touch az es) (steps r.lines)
        (path.flatMap fun i => List.replicate (steps [lineOf es i]).length i) := by
      rw [hlines, hstep]
      clear hlines hin hlen hrep hstep
      induction path with
      | nil => exact .nil
      | cons i path ih =>
        rw [List.flatMap_cons, List.flatMap_cons]
        refine List.rel_append ?_ (ih fun j hj => hown j (List.mem_cons_of_mem _ hj))
        have : ∀ l : List (P × P), (∀ s ∈ l, Own es s i) → List.Forall₂ (On touch az es) l (List.replicate l.length i) := by
          intro l
          induction l with
          | nil => intro _; exact .nil
          | cons s l ihl =>
            intro hl
            exact .cons (Or.inl (hl s (by simp))) (ihl fun t ht => hl t (List.mem_cons_of_mem _ ht))
        exact this _ (hown i (by simp))
    rw [edges_list_partial az hr hrefl h r hall]
    congr 1
    have hh : ∀ path : List Nat, (∀ i ∈ path, steps [lineOf es i] ≠ []) →
        heads (path.flatMap fun i => List.replicate (steps [lineOf es i]).length i) = heads path := by
      intro path
      induction path with
      | nil => intro _; rfl
      | cons i path ih =>
        intro hl
        rw [List.flatMap_cons]
        obtain ⟨n, hn⟩ := Nat.exists_eq_succ_of_ne_zero (fun h0 => hl i (by simp) (List.length_eq_zero_iff.1 h0))
        rw [hn, heads_append_replicate]
        have ih' := ih fun j hj => hl j (List.mem_cons_of_mem _ hj)
        cases path with
        | nil => rfl
        | cons j path =>
          rw [List.flatMap_cons] at ih' ⊢
          obtain ⟨m, hm⟩ := Nat.exists_eq_succ_of_ne_zero
            (fun h0 => hl j (by simp) (List.length_eq_zero_iff.1 h0))
          rw [hm, List.replicate_succ, List.cons_append] at ih' ⊢
          rw [heads, heads, ih']
    rw [hh path hlen, heads_id hrep]
  · rw [hlines, exportRoute, Route.ofRefs, Route.lines]
    clear hlines hlen hown hrep
    induction path with
    | nil => rfl
    | cons i path ih =>
      have hi := hin i (by simp)
      have : es[i]? = some es[i] := List.getElem?_eq_getElem hi
      rw [List.filterMap_cons_some (b := ⟨i, es[i].line⟩) (by rw [this]; rfl), List.map_cons, List.map_cons,
        ih fun j hj => hin j (List.mem_cons_of_mem _ hj)]
      simp [lineOf, this]
  · rw [edgeIds, foldl_heads Edge.id addId (fun acc b => rfl)]
    congr 1
    clear hlines hlen hown hrep hin
    induction path with
    | nil => rfl
    | cons i path ih =>
      cases he : es[i]? with
      | none => simp [he, ih]
      | some e => simp [he, ih]

/-! ### Cases -/

/-- Roads along a straight line: two segments touch if they overlap. -/
def overlaps (s t : Int × Int) : Prop := max (min s.1 s.2) (min t.1 t.2) ≤ min (max s.1 s.2) (max t.1 t.2)

instance (s t : Int × Int) : Decidable (overlaps s t) := inferInstanceAs (Decidable (_ ≤ _))

/-- East or west. -/
def heading (s : Int × Int) : ℚ := if s.1 < s.2 then 90 else 270

theorem heading_range (s t : Int × Int) : |heading s - heading t| ≤ 360 := by
  unfold heading
  split_ifs <;> norm_num

/-- Forth and back along three roads. -/
def roads : List (Edge Int) := [⟨7, [0, 5, 10]⟩, ⟨7, [10, 5, 0]⟩, ⟨8, [10, 20]⟩, ⟨8, [20, 10]⟩, ⟨9, [20, 30]⟩]

def found (es : List (Edge Int)) (s : Int × Int) : List (Entry Int) := (entries es).filter fun e => decide (overlaps s e.1)

theorem overlaps_refl (s : Int × Int) : overlaps s s := by
  unfold overlaps
  omega

/-- Along the first three roads, and from there back. -/
example := edges_path_partial heading heading_range overlaps_refl (answers_filter overlaps roads)
  (Route.ofRefs [⟨0, [0, 5, 10]⟩, ⟨2, [10, 20]⟩, ⟨3, [20, 10]⟩]) (path := [0, 2, 3]) (by decide) (by decide) (by decide)
  (by
    have key : ∀ i ∈ [0, 2, 3], ∀ s ∈ steps [lineOf roads i], (s, i) ∈ entries roads ∧ ∀ e ∈ entries roads, e.1 = s → e.2 = i := by
      decide
    intro i hi s hs
    obtain ⟨h1, h2⟩ := key i hi s hs
    exact ⟨(index_complete _ _ _).1 h1, fun j hj => h2 (s, j) ((index_complete _ _ _).2 hj) rfl⟩)
  (by simp)

example : edgesList heading (found roads) (Route.ofRefs [⟨0, [0, 5, 10]⟩, ⟨2, [10, 20]⟩, ⟨3, [20, 10]⟩]) = .ok [0, 2, 3] ∧
    edgeIds roads [0, 2, 3] = [7, 8] := by decide +kernel

/-- From the middle of a road against the direction of its neighbours. -/
example : Closest overlaps heading [⟨7, [0, 10]⟩, ⟨8, [20, 10]⟩] (4, 10) 0 := by
  have key : (∀ e ∈ entries ([⟨7, [0, 10]⟩, ⟨8, [20, 10]⟩] : List (Edge Int)), e.1 ≠ (4, 10)) ∧
      ∀ e ∈ entries ([⟨7, [0, 10]⟩, ⟨8, [20, 10]⟩] : List (Edge Int)), e.2 ≠ 0 →
        between (heading (4, 10)) (heading (0, 10)) < between (heading (4, 10)) (heading e.1) := by
    decide +kernel
  exact ⟨fun j hj => key.1 _ ((index_complete _ _ _).2 hj) rfl, (0, 10), ⟨_, rfl, by decide⟩, by decide,
    fun t' j hb _ hj => key.2 (t', j) ((index_complete _ _ _).2 hb) hj⟩

/-- **C68 fails** where the road goes straight on: a route from the middle of an edge to its end lies on this edge, but the
edge behind it has the same direction and is listed instead. -/
theorem straight_on_fails : ∃ es : List (Edge Int), Answers overlaps es (found es) ∧
    BelongsTo es (0, 10) 1 ∧ (∀ j, BelongsTo es (0, 10) j → j = 1) ∧
    edgesList heading (found es) (Route.ofRefs [⟨5, [4, 10]⟩]) = .ok [0] := by
  refine ⟨[⟨8, [10, 20]⟩, ⟨7, [0, 10]⟩], answers_filter overlaps _, ⟨_, rfl, by decide⟩, ?_, by decide +kernel⟩
  intro j hj
  have key : ∀ e ∈ entries ([⟨8, [10, 20]⟩, ⟨7, [0, 10]⟩] : List (Edge Int)), e.1 = (0, 10) → e.2 = 1 := by decide
  exact key (_, j) ((index_complete _ _ _).2 hj) rfl

/-- **C68 fails** for an edge that ends where it begins and is travelled twice: it is listed once. -/
theorem round_again_fails : ∃ es : List (Edge Int), Answers overlaps es (found es) ∧
    (∀ s j, BelongsTo es s j → j = 0) ∧ lineOf es 0 = [0, 10, 0] ∧
    edgesList heading (found es) (Route.ofRefs [⟨0, [0, 10, 0]⟩, ⟨0, [0, 10, 0]⟩]) = .ok [0] := by
  refine ⟨[⟨7, [0, 10, 0]⟩], answers_filter overlaps _, ?_, rfl, by decide +kernel⟩
  intro s j hj
  have key : ∀ e ∈ entries ([⟨7, [0, 10, 0]⟩] : List (Edge Int)), e.2 = 0 := by decide
  exact key (_, j) ((index_complete _ _ _).2 hj)

end MM.ExportEdges
