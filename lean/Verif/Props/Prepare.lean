import Verif.Proofs.Prepare
import Verif.Props.Tour

/-!
# C98: from files to a network
-/

set_option autoImplicit false
set_option linter.unusedSectionVars false

namespace MM.Prepare

open MM.Net MM.Line

variable {P : Type} [DecidableEq P]

/-! ### What the files permit -/

/-- A tag of the way makes it one-way. -/
def Oneway (f : Osm.Filters) (w : Osm.Way) : Prop := ∃ t ∈ w.tags, f.oneway.test t = true

/-- A tag of the way reverses it. -/
def Reversed (f : Osm.Filters) (w : Osm.Way) : Prop := ∃ t ∈ w.tags, f.reverse.test t = true

/-- The second follows the first. -/
def Follows (l : List Nat) (a b : Nat) : Prop := ∃ front back, l = front ++ a :: b :: back

/-- The way leads from `a` to `b` directly. -/
def Leads (f : Osm.Filters) (w : Osm.Way) (a b : Nat) : Prop :=
  (Follows w.refs a b ∧ ¬ (Oneway f w ∧ Reversed f w)) ∨ (Follows w.refs b a ∧ (¬ Oneway f w ∨ Reversed f w))

/-- Driving from one node (with its point) to another is permitted: a way that is used leads from one to the other, and both nodes
came before it in the files. -/
def Permits (f : Osm.Filters) (es : List (Osm.Element P)) (a b : Nat × P) : Prop :=
  ∃ before w after, es = before ++ .way w :: after ∧ Osm.used f w = true ∧ Osm.firstPoint before a.1 = some a.2 ∧
    Osm.firstPoint before b.1 = some b.2 ∧ Leads f w a.1 b.1

theorem detect_fst (f : Osm.Filters) (w : Osm.Way) : (Osm.detectOneway f w.tags).1 = true ↔ Oneway f w := by
  simp [Osm.detectOneway, Oneway]

theorem detect_snd (f : Osm.Filters) (w : Osm.Way) : (Osm.detectOneway f w.tags).2 = true ↔ Reversed f w := by
  simp [Osm.detectOneway, Reversed]

theorem follows_nil (a b : Nat) : ¬ Follows [] a b := by rintro ⟨front, back, h⟩; simp at h

theorem follows_one (x a b : Nat) : ¬ Follows [x] a b := by
  rintro ⟨front, back, h⟩
  have := congrArg List.length h
  simp at this
  omega

theorem follows_cons (x y : Nat) (l : List Nat) (a b : Nat) : Follows (x :: y :: l) a b ↔ (a = x ∧ b = y) ∨ Follows (y :: l) a b := by
  constructor
  · rintro ⟨front, back, h⟩
    cases front with
    | nil => simp at h; exact .inl ⟨h.1.symm, h.2.1.symm⟩
    | cons z front => simp at h; exact .inr ⟨front, back, h.2⟩
  · rintro (⟨rfl, rfl⟩ | ⟨front, back, h⟩)
    · exact ⟨[], l, rfl⟩
    · exact ⟨x :: front, back, by rw [h]; rfl⟩

theorem mem_between {oneway reverse : Bool} {way : Nat} {a b : Nat × P} {x : Option (Nat × P) × Option (Nat × P) × Nat × (P × P)} :
    x ∈ Osm.between oneway reverse way a b ↔
      (¬ (oneway = true ∧ reverse = true) ∧ x = Osm.expect way a b) ∨ ((oneway = false ∨ reverse = true) ∧ x = Osm.expect way b a) := by
  unfold Osm.between
  cases oneway <;> cases reverse <;> simp

theorem mem_along {kn : Nat → Option P} {oneway reverse : Bool} {way : Nat} {refs : List Nat}
    {x : Option (Nat × P) × Option (Nat × P) × Nat × (P × P)} :
    x ∈ Osm.along kn oneway reverse way refs ↔ ∃ a b, kn a.1 = some a.2 ∧ kn b.1 = some b.2 ∧ x = Osm.expect way a b ∧
      ((Follows refs a.1 b.1 ∧ ¬ (oneway = true ∧ reverse = true)) ∨ (Follows refs b.1 a.1 ∧ (oneway = false ∨ reverse = true))) := by
  induction refs with
  | nil => simp [Osm.along, follows_nil]
  | cons r refs ih =>
    cases refs with
    | nil => simp [Osm.along, follows_one]
    | cons r' refs =>
      rw [Osm.along, List.mem_append, ih]
      constructor
      · rintro (h | ⟨a, b, h1, h2, h3, h4⟩)
        · cases hp : kn r with
          | none => rw [hp] at h; simp at h
          | some p =>
            cases hq : kn r' with
            | none => rw [hp, hq] at h; simp at h
            | some q =>
              rw [hp, hq] at h
              rcases mem_between.1 h with ⟨h', rfl⟩ | ⟨h', rfl⟩
              · exact ⟨(r, p), (r', q), hp, hq, rfl, .inl ⟨(follows_cons ..).2 (.inl ⟨rfl, rfl⟩), h'⟩⟩
              · exact ⟨(r', q), (r, p), hq, hp, rfl, .inr ⟨(follows_cons ..).2 (.inl ⟨rfl, rfl⟩), h'⟩⟩
        · refine ⟨a, b, h1, h2, h3, h4.imp ?_ ?_⟩
          · exact fun h => ⟨(follows_cons ..).2 (.inr h.1), h.2⟩
          · exact fun h => ⟨(follows_cons ..).2 (.inr h.1), h.2⟩
      · rintro ⟨a, b, h1, h2, h3, ⟨h4, h5⟩ | ⟨h4, h5⟩⟩
        · rcases (follows_cons ..).1 h4 with ⟨rfl, rfl⟩ | h4
          · left; rw [h1, h2]; exact mem_between.2 (.inl ⟨h5, h3⟩)
          · exact .inr ⟨a, b, h1, h2, h3, .inl ⟨h4, h5⟩⟩
        · rcases (follows_cons ..).1 h4 with ⟨rfl, rfl⟩ | h4
          · left; rw [h1, h2]; exact mem_between.2 (.inr ⟨h5, h3⟩)
          · exact .inr ⟨a, b, h1, h2, h3, .inr ⟨h4, h5⟩⟩

/-- The passages of one way. -/
theorem mem_along_way {f : Osm.Filters} {kn : Nat → Option P} {w : Osm.Way} {x : Option (Nat × P) × Option (Nat × P) × Nat × (P × P)} :
    x ∈ Osm.along kn (Osm.detectOneway f w.tags).1 (Osm.detectOneway f w.tags).2 w.id w.refs ↔
      ∃ a b, kn a.1 = some a.2 ∧ kn b.1 = some b.2 ∧ x = Osm.expect w.id a b ∧ Leads f w a.1 b.1 := by
  rw [mem_along]
  simp only [← Bool.not_eq_true, detect_fst, detect_snd, Leads]

theorem mem_expected {f : Osm.Filters} {x : Option (Nat × P) × Option (Nat × P) × Nat × (P × P)} (es : List (Osm.Element P)) :
    ∀ pre, x ∈ Osm.expected f pre es ↔ ∃ before w after a b, es = before ++ .way w :: after ∧ Osm.used f w = true ∧
      Osm.firstPoint (pre ++ before) a.1 = some a.2 ∧ Osm.firstPoint (pre ++ before) b.1 = some b.2 ∧ x = Osm.expect w.id a b ∧
      Leads f w a.1 b.1 := by
  induction es with
  | nil => intro pre; simp [Osm.expected]
  | cons e es ih =>
    intro pre
    have hsplit : ∀ (Q : List (Osm.Element P) → Osm.Way → Prop), (∃ before w after, e :: es = before ++ .way w :: after ∧ Q before w) ↔
        (∃ w, e = .way w ∧ Q [] w) ∨ ∃ before w after, es = before ++ .way w :: after ∧ Q (e :: before) w := by
      intro Q
      constructor
      · rintro ⟨before, w, after, h, hq⟩
        cases before with
        | nil => simp at h; exact .inl ⟨w, h.1, hq⟩
        | cons y before => simp at h; obtain ⟨rfl, h⟩ := h; exact .inr ⟨before, w, after, h, hq⟩
      · rintro (⟨w, rfl, hq⟩ | ⟨before, w, after, rfl, hq⟩)
        · exact ⟨[], w, es, rfl, hq⟩
        · exact ⟨e :: before, w, after, rfl, hq⟩
    have := hsplit (fun before w => ∃ a b, Osm.used f w = true ∧
      Osm.firstPoint (pre ++ before) a.1 = some a.2 ∧ Osm.firstPoint (pre ++ before) b.1 = some b.2 ∧ x = Osm.expect w.id a b ∧
      Leads f w a.1 b.1)
    have hre := Iff.trans (a := ∃ before w after a b, e :: es = before ++ .way w :: after ∧ Osm.used f w = true ∧
        Osm.firstPoint (pre ++ before) a.1 = some a.2 ∧ Osm.firstPoint (pre ++ before) b.1 = some b.2 ∧ x = Osm.expect w.id a b ∧
        Leads f w a.1 b.1)
      ⟨fun ⟨b, w, a, x, y, h1, h2⟩ => ⟨b, w, a, h1, x, y, h2⟩, fun ⟨b, w, a, h1, x, y, h2⟩ => ⟨b, w, a, x, y, h1, h2⟩⟩ this
    rw [hre]
    have htail : (∃ before w after, es = before ++ .way w :: after ∧ ∃ a b, Osm.used f w = true ∧
        Osm.firstPoint (pre ++ e :: before) a.1 = some a.2 ∧ Osm.firstPoint (pre ++ e :: before) b.1 = some b.2 ∧
        x = Osm.expect w.id a b ∧ Leads f w a.1 b.1) ↔ x ∈ Osm.expected f (pre ++ [e]) es := by
      rw [ih]
      simp only [List.append_assoc, List.singleton_append]
      exact ⟨fun ⟨b, w, a, h1, x, y, h2⟩ => ⟨b, w, a, x, y, h1, h2⟩, fun ⟨b, w, a, x, y, h1, h2⟩ => ⟨b, w, a, h1, x, y, h2⟩⟩
    rw [htail]
    cases e with
    | node n => simp [Osm.expected]
    | way w =>
      rw [Osm.expected, List.mem_append]
      refine or_congr ?_ Iff.rfl
      by_cases hu : Osm.used f w = true
      · rw [if_pos hu, mem_along_way]
        constructor
        · rintro ⟨a, b, h1, h2, h3, h4⟩
          exact ⟨w, rfl, a, b, hu, by simpa using h1, by simpa using h2, h3, h4⟩
        · rintro ⟨w', hw, a, b, _, h1, h2, h3, h4⟩
          cases hw
          exact ⟨a, b, by simpa using h1, by simpa using h2, h3, h4⟩
      · rw [if_neg hu]
        constructor
        · intro h; cases h
        · rintro ⟨w', hw, a, b, h, _⟩
          cases hw
          exact absurd h hu

theorem mem_expected_iff {f : Osm.Filters} {es : List (Osm.Element P)} {a b : Nat × P} :
    Permits f es a b ↔ ∃ way, Osm.expect way a b ∈ Osm.expected f [] es := by
  simp only [mem_expected, List.nil_append]
  constructor
  · rintro ⟨before, w, after, h1, h2, h3, h4, h5⟩
    exact ⟨w.id, before, w, after, a, b, h1, h2, h3, h4, rfl, h5⟩
  · rintro ⟨_, before, w, after, a', b', h1, h2, h3, h4, h6, h5⟩
    simp only [Osm.expect, Prod.mk.injEq, Option.some.injEq] at h6
    obtain ⟨rfl, rfl, _⟩ := h6
    exact ⟨before, w, after, h1, h2, h3, h4, h5⟩

/-! ### The prepared network -/

theorem drawn_of {f : Osm.Filters} {es : List (Osm.Element P)} {st : Osm.St P}
    (h : st.edges.map (Osm.named st.verts) = Osm.expected f [] es) : Drawn st := by
  intro e he
  have : Osm.named st.verts e ∈ Osm.expected f [] es := by rw [← h]; exact List.mem_map_of_mem he
  obtain ⟨_, _, _, a, b, _, _, _, _, hx, _⟩ := (mem_expected es []).1 this
  simp only [Osm.named, Osm.expect, Prod.mk.injEq] at hx
  exact ⟨a, b, hx.1, hx.2.1, hx.2.2.2⟩

/-- Used ways have nodes if the import comes to an end. -/
theorem run_noEmpty {f : Osm.Filters} (es : List (Osm.Element P)) : ∀ {st st' : Osm.St P}, Osm.run f st es = .ok st' → Osm.NoEmpty f es := by
  induction es with
  | nil => intro st st' _ w hw; cases hw
  | cons e es ih =>
    intro st st' h
    rw [Osm.run] at h
    cases he : Osm.element f st e with
    | throws => rw [he] at h; cases h
    | ub => rw [he] at h; cases h
    | ok st1 =>
      rw [he, Outcome.bind_ok] at h
      intro w hw hu hr
      rcases List.mem_cons.1 hw with rfl | hw
      · simp only [Osm.element, Osm.way] at he
        rw [if_pos (show (w.visible && Osm.keep f w.tags) = true from hu), hr] at he
        simp [Osm.addVertices, Osm.addEdges] at he
      · exact ih h w hw hu hr

theorem run_result {f : Osm.Filters} {es : List (Osm.Element P)} {st : Osm.St P} (h : Osm.run f Osm.St.empty es = .ok st) :
    st.edges.map (Osm.named st.verts) = Osm.expected f [] es ∧ (st.verts.map Prod.fst).Nodup ∧
      ∀ id p, (id, p) ∈ st.verts → Osm.firstPoint es id = some p := by
  have hne := run_noEmpty es h
  obtain ⟨st1, h1, h2⟩ := Osm.edges_exact f es hne
  obtain ⟨st2, h3, h4, h5, _⟩ := Osm.vertices_partial f es hne
  rw [h] at h1 h3
  cases h1
  cases h3
  exact ⟨h2, h4, h5⟩

variable [Inhabited P]

/-- The stages of the preparation. -/
structure Stages (f : Osm.Filters) (s : Steps) (es : List (Osm.Element P)) (c : Csr.Csr (Nat × P) (Nat × List P)) (st : Osm.St P)
    (g : Net.Net P) : Prop where
  run : Osm.run f Osm.St.empty es = .ok st
  steps : processed s (fun v => (nodeOf st v).2) (imported st) = .ok g
  kept : Kept (fun v => (nodeOf st v).2) (imported st) g
  same : s.unconnected = false → segments g.edges = segments (imported st).edges
  verts : c.verts.map Prod.snd = g.verts.map (nodeOf st)
  rows : ∃ l, l.Perm g.edges ∧ List.Forall₂ (RowOf g) l c.edges

theorem stages {f : Osm.Filters} {s : Steps} {es : List (Osm.Element P)} {c : Csr.Csr (Nat × P) (Nat × List P)}
    (h : prepare f s es = .ok c) : ∃ st g, Stages f s es c st g := by
  unfold prepare at h
  cases hr : Osm.run f Osm.St.empty es with
  | throws => rw [hr] at h; cases h
  | ub => rw [hr] at h; cases h
  | ok st =>
    rw [hr, Outcome.bind_ok] at h
    have hwf := imported_wf (drawn_of (run_result hr).1)
    cases hp : processed s (fun v => (nodeOf st v).2) (imported st) with
    | throws => rw [hp] at h; cases h
    | ub => rw [hp] at h; cases h
    | ok g =>
      rw [hp, Outcome.bind_ok] at h
      obtain ⟨k1, k2⟩ := processed_kept s hwf hp
      obtain ⟨c', e1, e2, e3⟩ := compressed_ok (nodeOf st) k1.wf
        (top := st.verts.length) (fun v hv => List.mem_range.1 (k1.verts.subset hv))
      rw [h] at e1
      cases e1
      exact ⟨st, g, hr, hp, k1, k2, e2, e3⟩

theorem Stages.row {f : Osm.Filters} {s : Steps} {es : List (Osm.Element P)} {c : Csr.Csr (Nat × P) (Nat × List P)} {st : Osm.St P}
    {g : Net.Net P} (h : Stages f s es c st g) {r : Csr.Row (Nat × List P)} (hr : r ∈ c.edges) : ∃ e ∈ g.edges, RowOf g e r := by
  obtain ⟨l, h1, h2⟩ := h.rows
  obtain ⟨hl, hg⟩ := List.forall₂_iff_get.1 h2
  obtain ⟨i, hi, rfl⟩ := List.mem_iff_getElem.1 hr
  exact ⟨l[i]'(by rw [hl]; exact hi), h1.subset (List.getElem_mem _), by simpa using hg i (by rw [hl]; exact hi) hi⟩

theorem Stages.edge {f : Osm.Filters} {s : Steps} {es : List (Osm.Element P)} {c : Csr.Csr (Nat × P) (Nat × List P)} {st : Osm.St P}
    {g : Net.Net P} (h : Stages f s es c st g) {e : NEdge P} (he : e ∈ g.edges) : ∃ r ∈ c.edges, RowOf g e r := by
  obtain ⟨l, h1, h2⟩ := h.rows
  have he := h1.symm.subset he
  obtain ⟨hl, hg⟩ := List.forall₂_iff_get.1 h2
  obtain ⟨i, hi, rfl⟩ := List.mem_iff_getElem.1 he
  exact ⟨c.edges[i]'(by rw [← hl]; exact hi), List.getElem_mem _, by simpa using hg i hi (by rw [← hl]; exact hi)⟩

theorem Stages.node {f : Osm.Filters} {s : Steps} {es : List (Osm.Element P)} {c : Csr.Csr (Nat × P) (Nat × List P)} {st : Osm.St P}
    {g : Net.Net P} (h : Stages f s es c st g) {v u : Nat} (hv : g.verts[v]? = some u) :
    v < c.verts.length ∧ nodeAt c v = nodeOf st u ∧ nodeOf st u ∈ st.verts := by
  have h1 : (c.verts.map Prod.snd)[v]? = some (nodeOf st u) := by rw [h.verts]; simp [hv]
  have hu : u < st.verts.length := List.mem_range.1 (h.kept.verts.subset (List.mem_of_getElem? hv))
  refine ⟨?_, ?_, ?_⟩
  · have := (List.getElem?_eq_some_iff.1 h1).1
    simpa using this
  · rw [List.getElem?_map] at h1
    simp [nodeAt, h1]
  · rw [nodeOf, List.getD_eq_getElem?_getD, List.getElem?_eq_getElem hu]
    exact List.getElem_mem _

/-- The passages that the files permit, as often as ways permit them. -/
def passages (f : Osm.Filters) (es : List (Osm.Element P)) : List (P × P) := (Osm.expected f [] es).map fun x => x.2.2.2

theorem mem_passages {f : Osm.Filters} {es : List (Osm.Element P)} {x : P × P} :
    x ∈ passages f es ↔ ∃ a b, Permits f es a b ∧ x = (a.2, b.2) := by
  unfold passages
  rw [List.mem_map]
  constructor
  · rintro ⟨y, hy, rfl⟩
    obtain ⟨before, w, after, a, b, h1, h2, h3, h4, h5, h6⟩ := (mem_expected es []).1 hy
    exact ⟨a, b, ⟨before, w, after, h1, h2, h3, h4, h6⟩, by rw [h5]; rfl⟩
  · rintro ⟨a, b, h, rfl⟩
    obtain ⟨way, h⟩ := mem_expected_iff.1 h
    exact ⟨_, h, rfl⟩

theorem Stages.passages {f : Osm.Filters} {s : Steps} {es : List (Osm.Element P)} {c : Csr.Csr (Nat × P) (Nat × List P)} {st : Osm.St P}
    {g : Net.Net P} (h : Stages f s es c st g) : segments (imported st).edges = (passages f es : Multiset (P × P)) := by
  rw [imported_segments]
  unfold Prepare.passages
  rw [← (run_result h.run).1, List.map_map]
  rfl

theorem Stages.rows_segs {f : Osm.Filters} {s : Steps} {es : List (Osm.Element P)} {c : Csr.Csr (Nat × P) (Nat × List P)} {st : Osm.St P}
    {g : Net.Net P} (h : Stages f s es c st g) : (c.edges.flatMap fun r => segs r.data.2 : Multiset (P × P)) = segments g.edges := by
  obtain ⟨l, h1, h2⟩ := h.rows
  have : (c.edges.flatMap fun r => segs r.data.2) = l.flatMap fun e => segs e.line := by
    clear h1
    generalize c.edges = rows at h2
    induction h2 with
    | nil => rfl
    | cons hr _ ih => rw [List.flatMap_cons, List.flatMap_cons, ih, hr.2.2]
  rw [this]
  exact Multiset.coe_eq_coe.2 (h1.flatMap_right _)

/-- **C98, edges.**  Every edge of a prepared network has a line of at least two points, from the point of its source to that of its
target, and driving along each segment of the line is permitted by the files. -/
theorem prepared_edges {f : Osm.Filters} {s : Steps} {es : List (Osm.Element P)} {c : Csr.Csr (Nat × P) (Nat × List P)}
    (h : prepare f s es = .ok c) {r : Csr.Row (Nat × List P)} (hr : r ∈ c.edges) :
    r.src < c.verts.length ∧ r.tgt < c.verts.length ∧ 2 ≤ r.data.2.length ∧ r.data.2.head? = some (nodeAt c r.src).2 ∧
      r.data.2.getLast? = some (nodeAt c r.tgt).2 ∧
      ∀ sg ∈ segs r.data.2, ∃ a b, Permits f es a b ∧ sg = (a.2, b.2) := by
  obtain ⟨st, g, hs⟩ := stages h
  obtain ⟨e, he, h1, h2, h3⟩ := hs.row hr
  obtain ⟨a1, a2, _⟩ := hs.node h1
  obtain ⟨b1, b2, _⟩ := hs.node h2
  rw [h3]
  refine ⟨a1, b1, hs.kept.long (imported_long st) e he, ?_, ?_, ?_⟩
  · rw [a2]; exact hs.kept.wf.head e he
  · rw [b2]; exact hs.kept.wf.last e he
  · intro sg hsg
    have h4 : sg ∈ segments g.edges := mem_segments.2 ⟨e, he, hsg⟩
    have h5 := Multiset.mem_of_le hs.kept.segs h4
    rw [hs.passages] at h5
    exact mem_passages.1 h5

/-- **C98, nodes.**  The vertices are different nodes of the files, each at its first point there. -/
theorem prepared_nodes {f : Osm.Filters} {s : Steps} {es : List (Osm.Element P)} {c : Csr.Csr (Nat × P) (Nat × List P)}
    (h : prepare f s es = .ok c) : (c.verts.map fun v => v.2.1).Nodup ∧ ∀ v ∈ c.verts, Osm.firstPoint es v.2.1 = some v.2.2 := by
  obtain ⟨st, g, hs⟩ := stages h
  obtain ⟨_, h2, h3⟩ := run_result hs.run
  have hlt : ∀ v ∈ g.verts, v < st.verts.length := fun v hv => List.mem_range.1 (hs.kept.verts.subset hv)
  have hget : ∀ v (hv : v < st.verts.length), nodeOf st v = st.verts[v] := by
    intro v hv
    rw [nodeOf, List.getD_eq_getElem?_getD, List.getElem?_eq_getElem hv]
    rfl
  constructor
  · rw [show (fun v : Nat × Nat × P => v.2.1) = Prod.fst ∘ Prod.snd from rfl, ← List.map_map, hs.verts, List.map_map]
    refine List.Nodup.map_on ?_ hs.kept.wf.nodup
    intro x hx y hy hxy
    simp only [Function.comp_apply, hget x (hlt x hx), hget y (hlt y hy)] at hxy
    have := List.nodup_iff_injective_getElem.1 h2 (a₁ := ⟨x, by simpa using hlt x hx⟩) (a₂ := ⟨y, by simpa using hlt y hy⟩) (by simpa using hxy)
    simpa using this
  · intro v hv
    have : v.2 ∈ c.verts.map Prod.snd := List.mem_map_of_mem hv
    rw [hs.verts] at this
    obtain ⟨u, hu, hv'⟩ := List.mem_map.1 this
    refine h3 _ _ ?_
    show v.2 ∈ st.verts
    rw [← hv', hget u (hlt u hu)]
    exact List.getElem_mem _

/-- **C98, roads.**  If components are not removed, the segments of all edges are the passages permitted by the files, each as often as
ways permit it: no road is lost, none is added, whatever is simplified and whichever duplicates are removed. -/
theorem prepared_roads {f : Osm.Filters} {s : Steps} {es : List (Osm.Element P)} {c : Csr.Csr (Nat × P) (Nat × List P)}
    (h : prepare f s es = .ok c) (hu : s.unconnected = false) : (c.edges.flatMap fun r => segs r.data.2).Perm (passages f es) := by
  obtain ⟨st, g, hs⟩ := stages h
  rw [← Multiset.coe_eq_coe, hs.rows_segs, hs.same hu, hs.passages]

/-- **C98, every passage.**  Then every permitted passage is a segment of an edge. -/
theorem prepared_every {f : Osm.Filters} {s : Steps} {es : List (Osm.Element P)} {c : Csr.Csr (Nat × P) (Nat × List P)}
    (h : prepare f s es = .ok c) (hu : s.unconnected = false) {a b : Nat × P} (hp : Permits f es a b) :
    ∃ r ∈ c.edges, (a.2, b.2) ∈ segs r.data.2 := by
  have := (prepared_roads h hu).mem_iff.2 (mem_passages.2 ⟨a, b, hp, rfl⟩)
  obtain ⟨r, h1, h2⟩ := List.mem_flatMap.1 this
  exact ⟨r, h1, h2⟩

/-! ### Driving distances -/

section Distances

variable {R : Type} [AddCommMonoid R] [PartialOrder R] [IsOrderedAddMonoid R]

/-- Driving as the files permit it, from node to node, with its length. -/
inductive Drive (f : Osm.Filters) (es : List (Osm.Element P)) (d : P → P → R) : Nat × P → Nat × P → R → Prop where
  | stay (a : Nat × P) : Drive f es d a a 0
  | go {a b z : Nat × P} {r : R} (h : Permits f es a b) (hr : Drive f es d b z r) : Drive f es d a z (d a.2 b.2 + r)

/-- The length of a line: the distances from point to point. -/
def lengthOf (d : P → P → R) (l : List P) : R := ((segs l).map fun s => d s.1 s.2).sum

/-- Driving along the edges of the network. -/
inductive Ride (c : Csr.Csr (Nat × P) (Nat × List P)) (d : P → P → R) : Nat → Nat → R → Prop where
  | stay (v : Nat) : Ride c d v v 0
  | go {w : Nat} {x : R} (r : Csr.Row (Nat × List P)) (h : r ∈ c.edges) (hr : Ride c d r.tgt w x) :
    Ride c d r.src w (lengthOf d r.data.2 + x)

theorem lineLen_eq (d : P → P → R) (l : List P) : lineLen d l = lengthOf d l := by
  induction l with
  | nil => rfl
  | cons a l ih =>
    cases l with
    | nil => rfl
    | cons b l =>
      rw [lineLen, ih]
      show _ = (((a, b) :: segs (b :: l)).map fun s => d s.1 s.2).sum
      rw [List.map_cons, List.sum_cons]
      rfl

theorem Stages.route {f : Osm.Filters} {s : Steps} {es : List (Osm.Element P)} {c : Csr.Csr (Nat × P) (Nat × List P)} {st : Osm.St P}
    {g : Net.Net P} (h : Stages f s es c st g) (d : P → P → R) {u v a b : Nat} (hu : g.verts[u]? = some a) (hv : g.verts[v]? = some b)
    {r : R} : Ride c d u v r ↔ Walk d g.edges a b r := by
  constructor
  · intro hr
    induction hr generalizing a with
    | stay v =>
      rw [hu] at hv
      cases hv
      exact .nil _
    | @go w x row hm _ ih =>
      obtain ⟨e, he, h1, h2, h3⟩ := h.row hm
      rw [h1] at hu
      cases hu
      have := Walk.cons (d := d) e he (ih h2 hv)
      rw [lineLen_eq] at this
      rw [h3]
      exact this
  · intro hw
    have hinj : ∀ {k l x : Nat}, g.verts[k]? = some x → g.verts[l]? = some x → k = l := by
      intro k l x hk hl
      exact (List.getElem?_inj (List.getElem?_eq_some_iff.1 hk).1 h.kept.wf.nodup).1 (hk.trans hl.symm)
    induction hw generalizing u with
    | nil a => rw [hinj hu hv]; exact .stay _
    | cons e he _ ih =>
      obtain ⟨row, hm, h1, h2, h3⟩ := h.edge he
      rw [hinj hu h1]
      have := Ride.go (d := d) row hm (ih h2 hv)
      rw [h3] at this
      rw [lineLen_eq]
      exact this

theorem nodeOf_get (st : Osm.St P) {v : Nat} (hv : v < st.verts.length) : st.verts[v]? = some (nodeOf st v) := by
  rw [nodeOf, List.getD_eq_getElem?_getD, List.getElem?_eq_getElem hv]
  rfl

theorem Stages.drive {f : Osm.Filters} {s : Steps} {es : List (Osm.Element P)} {c : Csr.Csr (Nat × P) (Nat × List P)} {st : Osm.St P}
    {g : Net.Net P} (h : Stages f s es c st g) (d : P → P → R) {a b : Nat} (ha : a < st.verts.length) (hb : b < st.verts.length) {r : R} :
    Drive f es d (nodeOf st a) (nodeOf st b) r ↔ Walk d (imported st).edges a b r := by
  obtain ⟨h1, h2, _⟩ := run_result h.run
  have hinj : ∀ {k l : Nat} {x : Nat × P}, st.verts[k]? = some x → st.verts[l]? = some x → k = l := by
    intro k l x hk hl
    exact (List.getElem?_inj (List.getElem?_eq_some_iff.1 hk).1 (List.Nodup.of_map _ h2)).1 (hk.trans hl.symm)
  constructor
  · intro hd
    generalize hx : nodeOf st a = x at hd
    generalize hy : nodeOf st b = y at hd
    induction hd generalizing a with
    | stay z =>
      have e1 := nodeOf_get st ha
      have e2 := nodeOf_get st hb
      rw [hx] at e1
      rw [hy] at e2
      rw [hinj e1 e2]
      exact .nil _
    | @go p q z r hp _ ih =>
      obtain ⟨way, hm⟩ := mem_expected_iff.1 hp
      rw [← h1] at hm
      obtain ⟨e, he, hn⟩ := List.mem_map.1 hm
      simp only [Osm.named, Osm.expect, Prod.mk.injEq] at hn
      obtain ⟨n1, n2, n3, n4⟩ := hn
      obtain ⟨k, hk⟩ := List.mem_iff_getElem?.1 he
      have e1 := nodeOf_get st ha
      rw [hx] at e1
      have hs := hinj e1 n1
      have ht : e.tgt < st.verts.length := (List.getElem?_eq_some_iff.1 n2).1
      have e2 := nodeOf_get st ht
      rw [n2] at e2
      have hw := ih ht (Option.some.inj e2).symm hy
      have := Walk.cons (d := d) (es := (imported st).edges) ⟨k, e.way, e.src, e.tgt, [e.line.1, e.line.2]⟩
        ((imported_edges st).2 ⟨k, e, hk, rfl⟩) hw
      rw [hs]
      have hl : lineLen d [e.line.1, e.line.2] = d p.2 q.2 := by rw [n4]; simp [lineLen]
      simp only [hl] at this
      exact this
  · intro hw
    induction hw with
    | nil a => exact .stay _
    | @cons b r e he _ ih =>
      obtain ⟨k, x, hk, rfl⟩ := (imported_edges st).1 he
      have hx := List.mem_of_getElem? hk
      obtain ⟨p, q, hp, hq, hl⟩ := drawn_of h1 x hx
      have ht : x.tgt < st.verts.length := (List.getElem?_eq_some_iff.1 hq).1
      have e1 := nodeOf_get st ha
      have e2 := nodeOf_get st ht
      simp only at e1
      rw [hp] at e1
      rw [hq] at e2
      have hm : Osm.named st.verts x ∈ Osm.expected f [] es := by rw [← h1]; exact List.mem_map_of_mem hx
      have hperm : Permits f es p q := by
        refine mem_expected_iff.2 ⟨x.way, ?_⟩
        have : Osm.named st.verts x = Osm.expect x.way p q := by
          simp only [Osm.named, Osm.expect, hp, hq, hl]
        rw [← this]; exact hm
      have := Drive.go (d := d) hperm (by rw [Option.some.inj e2]; exact ih ht hb)
      simp only [lineLen, hl, add_zero]
      rw [← Option.some.inj e1]
      exact this

/-- **C98, routes are drives.**  Nodes are not merged.  Whatever else is done, a route along edges of the network is a drive between the
nodes that the files permit, of the same length. -/
theorem prepared_drives {f : Osm.Filters} {s : Steps} {es : List (Osm.Element P)} {c : Csr.Csr (Nat × P) (Nat × List P)}
    (h : prepare f s es = .ok c) (hn : s.duplicateNodes = false) (d : P → P → R) (hd : ∀ a b, 0 ≤ d a b) {u v : Nat}
    (hu : u < c.verts.length) (hv : v < c.verts.length) {r : R} (hr : Ride c d u v r) :
    Drive f es d (nodeAt c u) (nodeAt c v) r := by
  obtain ⟨st, g, hs⟩ := stages h
  have hlen : c.verts.length = g.verts.length := by
    have := congrArg List.length hs.verts
    simpa using this
  have e1 : g.verts[u]? = some (g.verts[u]'(by omega)) := List.getElem?_eq_getElem _
  have e2 : g.verts[v]? = some (g.verts[v]'(by omega)) := List.getElem?_eq_getElem _
  have hlt : ∀ {x y : Nat}, g.verts[x]? = some y → y < st.verts.length := fun h =>
    List.mem_range.1 (hs.kept.verts.subset (List.mem_of_getElem? h))
  rw [(hs.node e1).2.1, (hs.node e2).2.1, hs.drive d (hlt e1) (hlt e2)]
  have hw := (hs.route d e1 e2).1 hr
  have hwf := imported_wf (drawn_of (run_result hs.run).1)
  have hst := hs.steps
  unfold processed at hst
  unfold simplifyStep at hst
  have hback : ∀ g1, (unconnectedStep s g1).bind (fun g => (nodesStep s (fun v => (nodeOf st v).2) g).bind (edgesStep s)) = .ok g →
      ∀ e ∈ g.edges, e ∈ g1.edges := by
    intro g1 he
    have hnodes : ∀ g2, nodesStep s (fun v => (nodeOf st v).2) g2 = .ok g2 := by
      intro g2; unfold nodesStep; rw [if_neg (by simp [hn])]
    unfold unconnectedStep at he
    split_ifs at he
    · unfold largestComponent at he
      cases hc : removeUnconnected (fun v => (g1.outs v).map NEdge.tgt) g1.verts.length g1.verts with
      | throws => rw [hc] at he; cases he
      | ub => rw [hc] at he; cases he
      | ok kept =>
        rw [hc, Outcome.map_ok, Outcome.bind_ok, hnodes, Outcome.bind_ok] at he
        rw [edgesStep_kept s he]
        intro e he
        exact List.mem_of_mem_filter he
    · rw [Outcome.bind_ok, hnodes, Outcome.bind_ok] at he
      rw [edgesStep_kept s he]
      exact fun _ h => h
  split_ifs at hst
  · rw [Outcome.bind_ok] at hst
    exact Walk.mono (hback _ hst) hw
  · obtain ⟨g1, h1, h2⟩ := simplify_keeps_geometry (fun v => (nodeOf st v).2) d hd (decide (s.simplify = .all)) (imported st).verts hwf
    unfold simplify at hst
    rw [h1, Outcome.bind_ok] at hst
    exact h2.back _ _ _ (Walk.mono (hback _ hst) hw)

/-- **C98, distances.**  With complete or no simplification, and without removal of components and duplicate nodes: from one node of the
network to another there is a route if and only if the files permit a drive, and the shortest distances are the same.
Missing: simplification that keeps the borders of ways (C23), the removal of components (C24) and of duplicate nodes (C25). -/
theorem prepared_distances_partial {f : Osm.Filters} {s : Steps} {es : List (Osm.Element P)} {c : Csr.Csr (Nat × P) (Nat × List P)}
    (h : prepare f s es = .ok c) (hm : s.simplify ≠ .osmAware) (hc : s.unconnected = false) (hn : s.duplicateNodes = false)
    (d : P → P → R) (hd : ∀ a b, 0 ≤ d a b) {u v : Nat} (hu : u < c.verts.length) (hv : v < c.verts.length) :
    ((∃ r, Ride c d u v r) ↔ ∃ r, Drive f es d (nodeAt c u) (nodeAt c v) r) ∧
    ∀ r, IsLeast {r | Ride c d u v r} r ↔ IsLeast {r | Drive f es d (nodeAt c u) (nodeAt c v) r} r := by
  obtain ⟨st, g, hs⟩ := stages h
  have hlen : c.verts.length = g.verts.length := by
    have := congrArg List.length hs.verts
    simpa using this
  have e1 : g.verts[u]? = some (g.verts[u]'(by omega)) := List.getElem?_eq_getElem _
  have e2 : g.verts[v]? = some (g.verts[v]'(by omega)) := List.getElem?_eq_getElem _
  have hlt : ∀ {x y : Nat}, g.verts[x]? = some y → y < st.verts.length := fun h =>
    List.mem_range.1 (hs.kept.verts.subset (List.mem_of_getElem? h))
  have hwf := imported_wf (drawn_of (run_result hs.run).1)
  have hst := hs.steps
  unfold processed at hst
  have hrest : ∀ g1, (unconnectedStep s g1).bind (fun g => (nodesStep s (fun v => (nodeOf st v).2) g).bind (edgesStep s)) = .ok g → g = g1 := by
    intro g1 he
    unfold unconnectedStep at he
    rw [if_neg (by simp [hc]), Outcome.bind_ok] at he
    unfold nodesStep at he
    rw [if_neg (by simp [hn]), Outcome.bind_ok] at he
    exact edgesStep_kept s he
  unfold simplifyStep at hst
  rw [(hs.node e1).2.1, (hs.node e2).2.1]
  simp only [hs.drive d (hlt e1) (hlt e2), hs.route d e1 e2]
  split_ifs at hst with h0
  · rw [Outcome.bind_ok] at hst
    have hg := hrest _ hst
    subst hg
    exact ⟨Iff.rfl, fun _ => Iff.rfl⟩
  · have ha : s.simplify = .all := by
      cases hx : s.simplify with
      | none => exact absurd hx h0
      | all => rfl
      | osmAware => exact absurd hx hm
    rw [ha] at hst
    obtain ⟨g1, h1, h2⟩ := simplify_keeps_geometry (fun v => (nodeOf st v).2) d hd true (imported st).verts hwf
    have h1' : simplify (decide (Mode.all = Mode.all)) (imported st) = .ok g1 := h1
    rw [h1', Outcome.bind_ok] at hst
    have hg := hrest _ hst
    subst hg
    obtain ⟨k1, k2⟩ := simplify_keeps_distances_partial (fun v => (nodeOf st v).2) d hd _ hwf h1
      (List.mem_of_getElem? e1) (List.mem_of_getElem? e2)
    refine ⟨k1.symm, fun r => ?_⟩
    have := k2 r
    unfold Shortest at this
    simp only [IsLeast, mem_lowerBounds, Set.mem_setOf_eq]
    exact this.symm

end Distances

/-! ### When a network is prepared -/

theorem mergeAll_edges (ps : List (NEdge P × NEdge P)) : ∀ {g g' : Net.Net P}, mergeAll g ps = .ok g' → ps ≠ [] → g'.edges ≠ [] := by
  induction ps with
  | nil => intro g g' _ h; exact absurd rfl h
  | cons p ps ih =>
    intro g g' h _
    rw [mergeAll, mergeOne] at h
    cases hl : mergeLines p.1.line p.2.line with
    | throws => rw [hl] at h; cases h
    | ub => rw [hl] at h; cases h
    | ok l =>
      rw [hl, Outcome.map_ok, Outcome.bind_ok] at h
      cases ps with
      | nil => cases h; simp [replaced]
      | cons q ps => exact ih h (by simp)

theorem simplifyAll_verts {pos : Nat → P} (complete : Bool) (vs : List Nat) : ∀ {g g' : Net.Net P}, WF pos g →
    simplifyAll complete g vs = .ok g' → g.verts ≠ [] → g'.verts ≠ [] := by
  induction vs with
  | nil => intro g g' _ h; cases h; exact id
  | cons v vs ih =>
    intro g g' hwf h hne
    obtain ⟨g1, e1, s1, _⟩ := simplifyVertex_ok pos single single_nonneg complete hwf v
    rw [simplifyAll, e1, Outcome.bind_ok] at h
    refine ih s1.wf h ?_
    unfold simplifyVertex at e1
    split_ifs at e1
    · by_cases hm : merges complete g v = []
      · rw [hm] at e1; cases e1; exact hne
      · obtain ⟨e, he⟩ := List.exists_mem_of_ne_nil _ (mergeAll_edges _ e1 hm)
        exact List.ne_nil_of_mem (s1.wf.src e he)
    · cases e1; exact hne

/-- Some used way has a node that came before it. -/
def HasNode (f : Osm.Filters) (es : List (Osm.Element P)) : Prop :=
  ∃ before w after, es = before ++ .way w :: after ∧ Osm.used f w = true ∧ ∃ id ∈ w.refs, Osm.firstPoint before id ≠ none

/-- **C98, when.**  Without removal of duplicate edges, a network is prepared if and only if all ways that are used have nodes and, where
components are removed, the network is not empty. -/
theorem prepare_defined_iff (f : Osm.Filters) (s : Steps) (es : List (Osm.Element P)) (hd : s.duplicateEdges = false) :
    (∃ c, prepare f s es = .ok c) ↔ Osm.NoEmpty f es ∧ (s.unconnected = true → HasNode f es) := by
  have hverts : ∀ {st : Osm.St P}, Osm.run f Osm.St.empty es = .ok st → (st.verts ≠ [] ↔ HasNode f es) := by
    intro st h
    obtain ⟨st', h1, _, _, h2⟩ := Osm.vertices_partial f es (run_noEmpty es h)
    rw [h] at h1
    cases h1
    constructor
    · intro hne
      obtain ⟨v, hv⟩ := List.exists_mem_of_ne_nil _ hne
      obtain ⟨before, w, after, h3, h4, h5, h6⟩ := (h2 v.1).1 (List.mem_map_of_mem hv)
      exact ⟨before, w, after, h3, h4, v.1, h5, h6⟩
    · rintro ⟨before, w, after, h3, h4, id, h5, h6⟩ he
      have := (h2 id).2 ⟨before, w, after, h3, h4, h5, h6⟩
      simp [he] at this
  have hstep : ∀ {st : Osm.St P}, Osm.run f Osm.St.empty es = .ok st →
      ((∃ c, prepare f s es = .ok c) ↔ (s.unconnected = true → st.verts ≠ [])) := by
    intro st h
    have hwf := imported_wf (drawn_of (run_result h).1)
    obtain ⟨g1, e1, k1, _⟩ := simplifyStep_kept s hwf
    have hg1 : g1.verts = [] ↔ st.verts = [] := by
      constructor
      · intro hg
        by_contra hne
        have hi : (imported st).verts ≠ [] := by
          intro hx
          have := congrArg List.length hx
          simp [imported] at this
          exact hne this
        unfold simplifyStep at e1
        split_ifs at e1
        · cases e1; exact hi hg
        · exact simplifyAll_verts _ _ hwf e1 hi hg
      · intro hx
        have := k1.verts
        simp only [imported, hx, List.length_nil, List.range_zero] at this
        exact List.sublist_nil.1 this
    unfold prepare processed
    rw [h, Outcome.bind_ok, e1, Outcome.bind_ok]
    rcases unconnectedStep_kept s k1.wf with ⟨e2, hu, hv⟩ | ⟨g2, e2, k2, _, hnot⟩
    · rw [e2]
      simp only [Outcome.bind_ub]
      constructor
      · rintro ⟨c, hc⟩; cases hc
      · intro hx; exact absurd (hg1.1 hv) (hx hu)
    · rw [e2, Outcome.bind_ok]
      obtain ⟨g3, e3, k3, _⟩ := nodesStep_kept s k2.wf
      rw [e3, Outcome.bind_ok]
      unfold edgesStep
      rw [if_neg (by simp [hd]), Outcome.bind_ok]
      have hk := (k1.trans k2).trans k3
      obtain ⟨c, e4, _⟩ := compressed_ok (nodeOf st) hk.wf (top := st.verts.length)
        (fun v hv => List.mem_range.1 (hk.verts.subset hv))
      exact ⟨fun _ hu hv => hnot ⟨hu, hg1.2 hv⟩, fun _ => ⟨c, e4⟩⟩
  constructor
  · rintro ⟨c, hc⟩
    obtain ⟨st, g, hs⟩ := stages hc
    exact ⟨run_noEmpty es hs.run, fun hu => (hverts hs.run).1 ((hstep hs.run).1 ⟨c, hc⟩ hu)⟩
  · rintro ⟨h1, h2⟩
    obtain ⟨st, hr, _⟩ := Osm.edges_exact f es h1
    exact (hstep hr).2 (fun hu => (hverts hr).2 (h2 hu))

theorem expected_append (f : Osm.Filters) (xs ys : List (Osm.Element P)) : ∀ pre,
    Osm.expected f pre (xs ++ ys) = Osm.expected f pre xs ++ Osm.expected f (pre ++ xs) ys := by
  induction xs with
  | nil => intro pre; simp [Osm.expected]
  | cons e xs ih =>
    intro pre
    cases e with
    | node n => simp [Osm.expected, ih]
    | way w => simp [Osm.expected, ih, List.append_assoc]

theorem firstPoint_more (xs ys : List (Osm.Element P)) {id : Nat} {p : P} (h : Osm.firstPoint xs id = some p) :
    Osm.firstPoint (xs ++ ys) id = some p := by
  induction xs with
  | nil => simp [Osm.firstPoint] at h
  | cons e xs ih =>
    cases e with
    | node n =>
      simp only [List.cons_append, Osm.firstPoint] at h ⊢
      split_ifs at h ⊢ with hc
      · exact h
      · exact ih h
    | way w => exact ih h

/-- **C98 fails** where it is needed: if a way is in the files twice (as in files that overlap, for which the option is recommended) and
duplicate edges are removed, then, without simplification, the removal uses freed memory. -/
theorem overlap_fails (f : Osm.Filters) (s : Steps) (before between after : List (Osm.Element P)) (w : Osm.Way)
    (hne : Osm.NoEmpty f (before ++ .way w :: between ++ .way w :: after)) (hu : Osm.used f w = true) {a b : Nat × P}
    (ha : Osm.firstPoint before a.1 = some a.2) (hb : Osm.firstPoint before b.1 = some b.2) (hl : Leads f w a.1 b.1)
    (hs : s = ⟨.none, false, false, true⟩) : prepare f s (before ++ .way w :: between ++ .way w :: after) = .ub := by
  obtain ⟨st, hr, he⟩ := Osm.edges_exact f _ hne
  subst hs
  have hpair : ¬ (Osm.expected f [] (before ++ .way w :: between ++ .way w :: after)).Pairwise (· ≠ ·) := by
    rw [expected_append]
    intro hp
    have h1 : Osm.expect w.id a b ∈ Osm.expected f [] (before ++ .way w :: between) :=
      (mem_expected _ []).2 ⟨before, w, between, a, b, rfl, hu, ha, hb, rfl, hl⟩
    have h2 : Osm.expect w.id a b ∈ Osm.expected f ([] ++ (before ++ .way w :: between)) (.way w :: after) := by
      refine (mem_expected _ _).2 ⟨[], w, after, a, b, rfl, hu, ?_, ?_, rfl, hl⟩
      · simpa using firstPoint_more before (.way w :: between) ha
      · simpa using firstPoint_more before (.way w :: between) hb
    exact (List.pairwise_append.1 hp).2.2 _ h1 _ h2 rfl
  have hdup : ¬ (imported st).edges.Pairwise (fun x y => x.name ≠ y.name ∨ x.line ≠ y.line) := by
    intro hp
    refine hpair ?_
    rw [← he, List.pairwise_map]
    have hp' : (st.edges.zipIdx.map Prod.fst).Pairwise (fun x y : Osm.Edge P => Osm.named st.verts x ≠ Osm.named st.verts y) := by
      rw [List.pairwise_map]
      unfold imported at hp
      simp only [List.pairwise_map] at hp
      refine hp.imp ?_
      intro x y hxy hn
      simp only [Osm.named, Prod.mk.injEq] at hn
      rcases hxy with h | h
      · exact h hn.2.2.1
      · exact h (by rw [hn.2.2.2])
    rw [List.zipIdx_map_fst] at hp'
    exact hp'
  unfold prepare processed simplifyStep unconnectedStep nodesStep edgesStep
  rw [hr]
  simp [duplicate_edges_fails _ hdup]

/-! ### Matching on a prepared network -/

/-- **C98, ready for matching.**  If the files permit no passage between equal points, the prepared network is as matching needs it
(C94, C97). -/
theorem prepared_laid {f : Osm.Filters} {s : Steps} {es : List (Osm.Element P)} {c : Csr.Csr (Nat × P) (Nat × List P)}
    (h : prepare f s es = .ok c) (hd : ∀ a b, Permits f es a b → a.2 ≠ b.2) : Pipe.Laid (opened c) (fun v => (nodeAt c v).2) := by
  have hmem : ∀ e ∈ (opened c).edges, ∃ r ∈ c.edges, e = ⟨r.src, r.tgt, r.data.2⟩ := by
    intro e he
    obtain ⟨r, hr, rfl⟩ := List.mem_map.1 he
    exact ⟨r, hr, rfl⟩
  refine ⟨?_, ?_, ?_, ?_⟩ <;> intro e he <;> obtain ⟨r, hr, rfl⟩ := hmem e he <;> obtain ⟨_, _, h3, h4, h5, h6⟩ := prepared_edges h hr
  · exact h3
  · have : ∀ sg ∈ segs r.data.2, sg.1 ≠ sg.2 := by
      intro sg hsg
      obtain ⟨a, b, hp, rfl⟩ := h6 sg hsg
      exact hd a b hp
    show r.data.2.IsChain (· ≠ ·)
    generalize r.data.2 = l at this
    induction l with
    | nil => exact .nil
    | cons x l ih =>
      cases l with
      | nil => exact .singleton _
      | cons y l =>
        have hs : segs (x :: y :: l) = (x, y) :: segs (y :: l) := rfl
        rw [hs] at this
        exact .cons_cons (this (x, y) (by simp)) (ih (fun sg hsg => this sg (List.mem_cons_of_mem _ hsg)))
  · exact h4
  · exact h5

/-- `x` to `y` is a piece of a passage that the files permit, in its direction. -/
def OnPassage {R A : Type} [LinearOrder R] [AddCommGroup R] (G : Geo P R A) (f : Osm.Filters) (es : List (Osm.Element P)) (x y : P) : Prop :=
  ∃ a b, Permits f es a b ∧ Pipe.Between G a.2 x b.2 ∧ Pipe.Between G a.2 y b.2 ∧ Pipe.Between G a.2 x y

theorem onPassage {f : Osm.Filters} {s : Steps} {es : List (Osm.Element P)} {c : Csr.Csr (Nat × P) (Nat × List P)}
    (h : prepare f s es = .ok c) {j : Pipe.Job Nat P ℝ ℝ} (hn : j.net = opened c) {x y : P} (hxy : Pipe.OnEdge j x y) :
    OnPassage j.env.G f es x y := by
  obtain ⟨e, he, p, q, h1, h2, h3, h4⟩ := hxy
  rw [hn] at he
  obtain ⟨r, hr, rfl⟩ := List.mem_map.1 he
  obtain ⟨a, b, hp, hab⟩ := (prepared_edges h hr).2.2.2.2.2 _ h1
  simp only [Prod.mk.injEq] at hab
  obtain ⟨rfl, rfl⟩ := hab
  exact ⟨a, b, hp, h2, h3, h4⟩

/-- A job of matching on a prepared network, as the search for candidates and the routing leave it (C94). -/
structure Serves (j : Pipe.Job Nat P ℝ ℝ) (c : Csr.Csr (Nat × P) (Nat × List P)) (bounds : (ℝ → Bool) → Prop) : Prop where
  net : j.net = opened c
  plane : Pipe.Plane j.env.G
  cands : ∀ cs ∈ j.cands, ∀ x ∈ cs, ∃ e p switch d, j.net.edges[x.1]? = some e ∧
    CandEdge.candidate j.env switch p e.line = some (.ok d) ∧ Pipe.At j.env e.line (CandEdge.snapped j.env switch p e.line).1 ∧
    x.2.proj = d.proj ∧ x.2.from_ = d.from_ ∧ x.2.to_ = d.to_
  found : ∀ v w, Pipe.Answer (j.net.graph j.env.G) bounds v w (j.found v w)

theorem Serves.ready {f : Osm.Filters} {s : Steps} {es : List (Osm.Element P)} {c : Csr.Csr (Nat × P) (Nat × List P)}
    {j : Pipe.Job Nat P ℝ ℝ} {bounds : (ℝ → Bool) → Prop} (hj : Serves j c bounds) (h : prepare f s es = .ok c)
    (hd : ∀ a b, Permits f es a b → a.2 ≠ b.2) : Pipe.Ready j (fun v => (nodeAt c v).2) bounds :=
  ⟨hj.plane, by rw [hj.net]; exact prepared_laid h hd, hj.cands, hj.found⟩

/-- **C98, match.**  Tracks are matched on a prepared network, turns within edges are not trimmed, the files permit no passage between
equal points.  Whatever bounds the searches use, the match is invalid or a connected route of which every segment is a piece of a
passage that the files permit, in the permitted direction.
Missing: as in C94 (A* search with unreachable goals, lines or candidates as in C74's exceptions). -/
theorem matched_permitted_partial {f : Osm.Filters} {s : Steps} {es : List (Osm.Element P)} {c : Csr.Csr (Nat × P) (Nat × List P)}
    (h : prepare f s es = .ok c) (hd : ∀ a b, Permits f es a b → a.2 ≠ b.2) {j : Pipe.Job Nat P ℝ ℝ} {bounds : (ℝ → Bool) → Prop}
    (hj : Serves j c bounds) (hw : j.within = false)
    (hstr : j.joins = true → MatchRoute.Straight j.setting (Pipe.OnEdge j) j.env.G.len) (fs : Weights.Factors) {t0 : Nat}
    (ht : Pipe.Starts j t0) :
    ∃ r, j.run fs = .ok r ∧ (r = MM.Route.Route.bad ∨ (r.isConnected = true ∧
      ∀ l ∈ r.lines, ∀ sg ∈ segs l, sg.1 ≠ sg.2 → OnPassage j.env.G f es sg.1 sg.2)) := by
  rcases Pipe.match_bounded_partial (hj.ready h hd) (fun hx => ⟨hw, hstr hx⟩) fs ht with h1 | ⟨_, r, _, _, h1, _, h2, _, _, h3⟩
  · exact ⟨_, h1, .inl rfl⟩
  · exact ⟨r, h1, .inr ⟨h2, fun l hl sg hsg hne => onPassage h hj.net (h3 hw l hl sg hsg hne)⟩⟩

/-- **C98, match by the decision process.**  The same for value iteration (without bounds, errors are skipped, as in C97). -/
theorem decided_permitted_partial {f : Osm.Filters} {s : Steps} {es : List (Osm.Element P)} {c : Csr.Csr (Nat × P) (Nat × List P)}
    (h : prepare f s es = .ok c) (hd : ∀ a b, Permits f es a b → a.2 ≠ b.2) {j : Pipe.Job Nat P ℝ ℝ}
    (hj : Serves j c (fun b => b = SP.noBound)) (hw : j.within = false) (hf : Pipe.Fair j)
    (hstr : j.joins = true → MatchRoute.Straight j.setting (Pipe.OnEdge j) j.env.G.len) (hgap : Pipe.NoWideGap j) {fs : Weights.Factors}
    (hfo : Weights.FactorsOk fs) {γ : ℝ} (hγ : 0 ≤ γ) {th : ℝ} {k : Nat} {r : MM.Route.Route P}
    (hr : j.byValues fs true γ th k = .ok (some r)) {t0 : Nat} (ht : Pipe.Starts j t0) :
    ∀ l ∈ r.lines, ∀ sg ∈ segs l, sg.1 ≠ sg.2 → OnPassage j.env.G f es sg.1 sg.2 := by
  obtain ⟨runs, l, v, h1, _⟩ := Pipe.decided_partial (hj.ready h hd) hw hf hstr hgap hfo hγ hr ht
  obtain ⟨parts, h2, h3⟩ := h1.lines
  intro l hl sg hsg hne
  rw [h2] at hl
  obtain ⟨ls, hls, hl⟩ := List.mem_flatten.1 hl
  obtain ⟨hlen, hget⟩ := List.forall₂_iff_get.1 h3
  obtain ⟨i, hi, rfl⟩ := List.mem_iff_getElem.1 hls
  have hst := hget i (by rw [hlen]; exact hi) hi
  exact onPassage h hj.net (hst.onEdges hw l (by simpa using hl) sg hsg hne)

/-- **C98, searches end.**  In the graph of a prepared network every search for a path comes to an answer, whatever its bound. -/
theorem prepared_answers_within (c : Csr.Csr (Nat × P) (Nat × List P)) (G : Geo P ℝ ℝ) (exceeds : ℝ → Bool) (v w : Nat) :
    ∃ o, Pipe.Answer ((opened c).graph G) (fun b => b = exceeds) v w o := by
  have hall : ∀ x ws, SP.Walk ((opened c).graph G) v x ws → x ∈ insert v ((c.edges.map Csr.Row.tgt).toFinset) := by
    intro x ws hx
    have hout : ∀ {a : Nat} {e : Nat × Pipe.Weight ℝ}, e ∈ (opened c).graph G a → e.1 ∈ c.edges.map Csr.Row.tgt := by
      intro a e he
      simp only [Pipe.Net.graph, List.mem_map, Pipe.Net.outs, List.mem_filterMap] at he
      obtain ⟨y, ⟨z, hz, hzy⟩, rfl⟩ := he
      split_ifs at hzy with hsrc
      cases hzy
      have := List.fst_mem_of_mem_zipIdx hz
      obtain ⟨r, hr, hrz⟩ := List.mem_map.1 this
      rw [← hrz]
      exact List.mem_map_of_mem hr
    cases hx with
    | nil => simp
    | snoc _ he => simp only [Finset.mem_insert, List.mem_toFinset]; exact .inr (hout he)
  obtain ⟨s, h1, h2⟩ : ∃ s : SP.State Nat ℝ, SP.Reach ((opened c).graph G) exceeds (SP.goalsStop [w]) v s ∧ SP.Done (SP.goalsStop [w]) s := by
    by_contra hcon
    push Not at hcon
    have hstep : ∀ s : {s : SP.State Nat ℝ // SP.Reach ((opened c).graph G) exceeds (SP.goalsStop [w]) v s},
        ∃ t : {s : SP.State Nat ℝ // SP.Reach ((opened c).graph G) exceeds (SP.goalsStop [w]) v s},
          SP.Step ((opened c).graph G) exceeds (SP.goalsStop [w]) s.1 t.1 := by
      intro s
      obtain ⟨t, ht⟩ := SP.dijkstra_progress (g := (opened c).graph G) (exceeds := exceeds) s.1 (hcon s.1 s.2)
      exact ⟨⟨t, .step s.2 ht⟩, ht⟩
    choose next hnext using hstep
    refine SP.dijkstra_terminates_within ((opened c).graph G) exceeds (SP.goalsStop [w]) v _ hall
      ⟨fun n => (next^[n] ⟨_, .init⟩).1, rfl, fun n => ?_⟩
    show SP.Step _ _ _ (next^[n] _).1 (next^[n + 1] _).1
    rw [Function.iterate_succ_apply']
    exact hnext _
  by_cases hf : w ∈ s.finished
  · obtain ⟨_, d, hd, _⟩ := (SP.inv_reach h1).fin w hf
    obtain ⟨n, p, _, hp, _⟩ := SP.dijkstra_path v h1 w d hd
    exact ⟨_, .path exceeds [w] s v n p rfl (by simp) h1 h2 hf hp⟩
  · exact ⟨_, .nothing exceeds [w] s rfl (by simp) h1 h2 hf⟩

/-- The same without a bound. -/
theorem prepared_answers (c : Csr.Csr (Nat × P) (Nat × List P)) (G : Geo P ℝ ℝ) (v w : Nat) :
    ∃ o, Pipe.Answer ((opened c).graph G) (fun b => b = SP.noBound) v w o := prepared_answers_within c G SP.noBound v w

/-- **C98, by tags.**  With the default filters, driving from a to b is permitted if and only if a visible way with a highway tag that
comes after both nodes names a directly before b and is not tagged as reversed one-way, or names b directly before a and is not tagged as
one-way or is tagged as reversed. -/
theorem permitted_by_tags {es : List (Osm.Element P)} {a b : Nat × P} : Permits Osm.defaults es a b ↔
    ∃ before w after, es = before ++ .way w :: after ∧ Osm.firstPoint before a.1 = some a.2 ∧ Osm.firstPoint before b.1 = some b.2 ∧
      w.visible = true ∧ (∃ v, ("highway", v) ∈ w.tags) ∧
      ((Follows w.refs a.1 b.1 ∧ ¬ (Osm.taggedOneway w ∧ Osm.taggedReverse w)) ∨
        (Follows w.refs b.1 a.1 ∧ (¬ Osm.taggedOneway w ∨ Osm.taggedReverse w))) := by
  have h1 : ∀ w, Oneway Osm.defaults w ↔ Osm.taggedOneway w := fun w => (detect_fst _ w).symm.trans (Osm.detect_oneway w)
  have h2 : ∀ w, Reversed Osm.defaults w ↔ Osm.taggedReverse w := fun w => (detect_snd _ w).symm.trans (Osm.detect_reverse w)
  simp only [Permits, Leads, h1, h2, Osm.used_defaults, Osm.isRoad]
  constructor
  · rintro ⟨x, w, y, k1, ⟨k2, k3⟩, k4, k5, k6⟩
    exact ⟨x, w, y, k1, k4, k5, k2, k3, k6⟩
  · rintro ⟨x, w, y, k1, k4, k5, k2, k3, k6⟩
    exact ⟨x, w, y, k1, ⟨k2, k3⟩, k4, k5, k6⟩

/-! ### Examples: a one-way road from 0 over 10 to 20, on to 35 in both directions -/

/-- Nodes 1, 2, 3, 4 at 0, 10, 20, 35. -/
def town : List (Osm.Element Int) :=
  [.node ⟨1, true, 0⟩, .node ⟨2, true, 10⟩, .node ⟨3, true, 20⟩, .node ⟨4, true, 35⟩,
    .way ⟨100, true, [1, 2, 3], [("highway", "primary"), ("oneway", "yes")]⟩, .way ⟨101, true, [3, 4], [("highway", "primary")]⟩]

/-- Nothing is simplified or removed. -/
def plainly : Steps := ⟨.none, false, false, false⟩

/-- Complete simplification, as by default. -/
def usually : Steps := ⟨.all, false, false, false⟩

def townNet : Csr.Csr (Nat × Int) (Nat × List Int) :=
  ⟨[(0, (1, 0)), (1, (2, 10)), (2, (3, 20)), (3, (4, 35))],
    [⟨0, 1, (100, [0, 10])⟩, ⟨1, 2, (100, [10, 20])⟩, ⟨2, 3, (101, [20, 35])⟩, ⟨3, 2, (101, [35, 20])⟩]⟩

theorem town_plain : prepare Osm.defaults plainly town = .ok townNet := by decide +kernel

theorem town_usual : prepare Osm.defaults usually town =
    .ok ⟨[(0, (1, 0)), (1, (3, 20)), (2, (4, 35))],
      [⟨0, 1, (100, [0, 10, 20])⟩, ⟨1, 2, (101, [20, 35])⟩, ⟨2, 1, (101, [35, 20])⟩]⟩ := by decide +kernel

theorem town_permits {a b : Nat × Int} : Permits Osm.defaults town a b ↔
    (a, b) ∈ [((1, (0 : Int)), (2, (10 : Int))), ((2, 10), (3, 20)), ((3, 20), (4, 35)), ((4, 35), (3, 20))] := by
  have he : Osm.expected Osm.defaults [] town = [Osm.expect 100 (1, 0) (2, 10), Osm.expect 100 (2, 10) (3, 20),
      Osm.expect 101 (3, 20) (4, 35), Osm.expect 101 (4, 35) (3, 20)] := by decide +kernel
  rw [mem_expected_iff, he]
  simp only [List.mem_cons, List.not_mem_nil, or_false, Osm.expect, Prod.mk.injEq, Option.some.injEq]
  constructor
  · rintro ⟨_, ⟨rfl, rfl, _⟩ | ⟨rfl, rfl, _⟩ | ⟨rfl, rfl, _⟩ | ⟨rfl, rfl, _⟩⟩ <;> simp
  · rintro (⟨rfl, rfl⟩ | ⟨rfl, rfl⟩ | ⟨rfl, rfl⟩ | ⟨rfl, rfl⟩)
    · exact ⟨100, by simp⟩
    · exact ⟨100, by simp⟩
    · exact ⟨101, by simp⟩
    · exact ⟨101, by simp⟩

/-- Hypotheses of the theorems hold for the town. -/
example : Permits Osm.defaults town (2, 10) (3, 20) ∧ ¬ Permits Osm.defaults town (3, 20) (2, 10) ∧
    (∀ a b, Permits Osm.defaults town a b → a.2 ≠ b.2) ∧ Osm.NoEmpty Osm.defaults town ∧ HasNode Osm.defaults town := by
  refine ⟨town_permits.2 (by simp), fun h => by simpa using town_permits.1 h, ?_, ?_, ?_⟩
  · intro a b h
    have := town_permits.1 h
    simp only [List.mem_cons, List.not_mem_nil, or_false, Prod.mk.injEq] at this
    rcases this with ⟨rfl, rfl⟩ | ⟨rfl, rfl⟩ | ⟨rfl, rfl⟩ | ⟨rfl, rfl⟩ <;> decide
  · exact run_noEmpty town (stages town_plain).choose_spec.choose_spec.run
  · exact ((prepare_defined_iff Osm.defaults ⟨.none, true, false, false⟩ town rfl).1 ⟨townNet, by decide +kernel⟩).2 rfl

theorem town_apart {a b : Nat × Int} (h : Permits Osm.defaults town a b) : a.2 ≠ b.2 := by
  have := town_permits.1 h
  simp only [List.mem_cons, List.not_mem_nil, or_false, Prod.mk.injEq] at this
  rcases this with ⟨rfl, rfl⟩ | ⟨rfl, rfl⟩ | ⟨rfl, rfl⟩ | ⟨rfl, rfl⟩ <;> decide

/-- From node 1 to node 4 it is 35, by the files and by the simplified network. -/
example : IsLeast {r | Drive Osm.defaults town (fun a b : Int => |b - a|) (1, 0) (4, 35) r} 35 ∧
    IsLeast {r | Ride ⟨[(0, (1, 0)), (1, (3, 20)), (2, (4, 35))],
      [⟨0, 1, (100, [0, 10, 20])⟩, ⟨1, 2, (101, [20, 35])⟩, ⟨2, 1, (101, [35, 20])⟩]⟩ (fun a b : Int => |b - a|) 0 2 r} 35 := by
  have h1 : IsLeast {r | Drive Osm.defaults town (fun a b : Int => |b - a|) (1, 0) (4, 35) r} 35 := by
    refine ⟨?_, fun r hr => ?_⟩
    · have e1 : Permits Osm.defaults town (1, 0) (2, 10) := town_permits.2 (by simp)
      have e2 : Permits Osm.defaults town (2, 10) (3, 20) := town_permits.2 (by simp)
      have e3 : Permits Osm.defaults town (3, 20) (4, 35) := town_permits.2 (by simp)
      have h := Drive.go (d := fun a b : Int => |b - a|) e1 (.go e2 (.go e3 (.stay _)))
      norm_num at h
      exact h
    · have : ∀ (a z : Nat × Int) (r : Int), Drive Osm.defaults town (fun a b : Int => |b - a|) a z r → z.2 - a.2 ≤ r := by
        intro a z r h
        induction h with
        | stay a => simp
        | go _ _ ih =>
          rename_i a b z r _ _
          have := le_abs_self (b.2 - a.2)
          omega
      have := this _ _ _ hr
      simpa using this
  exact ⟨h1, ((prepared_distances_partial town_usual (by decide) rfl rfl (fun a b : Int => |b - a|) (fun a b => abs_nonneg _)
    (u := 0) (v := 2) (by decide) (by decide)).2 35).2 h1⟩

/-- A track along the town, with candidates for points at 2, 5 and 13. -/
noncomputable def townJob (found : Nat → Nat → Option (List Nat)) : Pipe.Job Nat Int ℝ ℝ where
  net := opened townNet
  env := Pipe.streetEnv
  turn d := decide (d ≠ 0)
  within := false
  joins := false
  track := [-7, 2, 5, 13]
  cands := Pipe.onward
  found := found

theorem town_serves : ∃ found, Serves (townJob found) townNet (fun b => b = SP.noBound) := by
  choose found hf using prepared_answers townNet Pipe.streetGeo
  refine ⟨found, rfl, Pipe.street_plane, ?_, hf⟩
  have h2 : ∀ (i : Nat) (a b p : Int), (opened townNet).edges[i]? = some ⟨i, i + 1, [a, b]⟩ → a < p → p < b → ∀ dist,
      ∃ e q r d, (townJob found).net.edges[i]? = some e ∧ CandEdge.candidate Pipe.streetEnv r q e.line = some (.ok d) ∧
        Pipe.At Pipe.streetEnv e.line (CandEdge.snapped Pipe.streetEnv r q e.line).1 ∧
        (⟨p, dist, [a, p], [p, b]⟩ : CandEdge.Cand Int ℝ).proj = d.proj ∧ [a, p] = d.from_ ∧ [p, b] = d.to_ := by
    intro i a b p hi h1 h2 dist
    obtain ⟨d, h⟩ := Pipe.street_cand a b p h1 h2
    exact ⟨_, p, 2, d, hi, h⟩
  intro xs hxs c hc
  replace hxs : xs ∈ Pipe.onward := hxs
  simp only [Pipe.onward, List.mem_cons, List.not_mem_nil, or_false] at hxs
  rcases hxs with rfl | rfl | rfl | rfl
  · simp at hc
  · simp only [List.mem_singleton] at hc
    subst hc; exact h2 0 0 10 2 rfl (by omega) (by omega) 0
  · simp only [List.mem_cons, List.not_mem_nil, or_false] at hc
    rcases hc with rfl | rfl
    · exact h2 0 0 10 4 rfl (by omega) (by omega) 1
    · exact h2 0 0 10 5 rfl (by omega) (by omega) 0
  · simp only [List.mem_singleton] at hc
    subst hc; exact h2 1 10 20 13 rfl (by omega) (by omega) 0

theorem town_starts (found : Nat → Nat → Option (List Nat)) : Pipe.Starts (townJob found) 1 :=
  ⟨by simp [townJob, Pipe.onward], by simp [townJob, Pipe.onward], by
    intro s hs
    obtain rfl : s = 0 := by omega
    rfl⟩

/-- The hypotheses of `matched_permitted_partial` hold. -/
example (fs : Weights.Factors) : ∃ found r, (townJob found).run fs = .ok r ∧ (r = MM.Route.Route.bad ∨ (r.isConnected = true ∧
    ∀ l ∈ r.lines, ∀ sg ∈ segs l, sg.1 ≠ sg.2 → OnPassage Pipe.streetGeo Osm.defaults town sg.1 sg.2)) := by
  obtain ⟨found, hj⟩ := town_serves
  obtain ⟨r, h⟩ := matched_permitted_partial town_plain (fun _ _ => town_apart) hj rfl (fun h => by cases h) fs (town_starts found)
  exact ⟨found, r, h⟩

/-- The hypotheses of `decided_permitted_partial` hold. -/
example : ∃ found k r, (townJob found).byValues Pipe.usual true 0.99 0.001 k = .ok (some r) ∧
    ∀ l ∈ r.lines, ∀ sg ∈ segs l, sg.1 ≠ sg.2 → OnPassage Pipe.streetGeo Osm.defaults town sg.1 sg.2 := by
  obtain ⟨found, hj⟩ := town_serves
  have hf : Pipe.Fair (townJob found) := by
    refine ⟨?_, fun a => abs_nonneg _, rfl, fun _ _ => rfl, rfl⟩
    intro xs hxs c hc
    replace hxs : xs ∈ Pipe.onward := hxs
    simp only [Pipe.onward, List.mem_cons, List.not_mem_nil, or_false] at hxs
    rcases hxs with rfl | rfl | rfl | rfl <;> simp only [List.mem_cons, List.not_mem_nil, or_false] at hc
    · subst hc; simp
    · rcases hc with rfl | rfl <;> simp
    · subst hc; simp
  have hgap : Pipe.NoWideGap (townJob found) := by
    intro t ht h1 h2
    replace ht : t + 1 < 4 := ht
    have : t = 0 ∨ t = 1 ∨ t = 2 := by omega
    rcases this with rfl | rfl | rfl
    · simp [townJob, Pipe.onward] at h2
    · simp [townJob, Pipe.onward] at h1
    · simp [townJob, Pipe.onward] at h1
  obtain ⟨K, hK⟩ := Pipe.decided_ends (hj.ready town_plain (fun _ _ => town_apart)) rfl hf (fun h => by cases h) hgap Pipe.usual 0.99
    (show (0 : ℝ) ≤ 0.001 by norm_num)
  obtain ⟨r, hr⟩ := hK K le_rfl
  exact ⟨found, K, r, hr, decided_permitted_partial town_plain (fun _ _ => town_apart) hj rfl hf (fun h => by cases h) hgap Pipe.usual_ok
    (by norm_num) hr (town_starts found)⟩

/-- A file that is given twice. -/
example : prepare Osm.defaults ⟨.none, false, false, true⟩ (town ++ town) = .ub := by decide +kernel

/-- **C98 fails** when components are removed: the road from node 1 is lost, although it leads to the others, because the search for
components follows one-way roads in their direction only and the way came last. -/
theorem one_way_lost_fails : Permits Osm.defaults [.node ⟨1, true, (0 : Int)⟩, .node ⟨2, true, 10⟩, .node ⟨3, true, 20⟩,
      .way ⟨101, true, [2, 3], [("highway", "primary")]⟩, .way ⟨100, true, [1, 2], [("highway", "primary"), ("oneway", "yes")]⟩] (1, 0) (2, 10) ∧
    prepare Osm.defaults ⟨.none, true, false, false⟩ [.node ⟨1, true, (0 : Int)⟩, .node ⟨2, true, 10⟩, .node ⟨3, true, 20⟩,
      .way ⟨101, true, [2, 3], [("highway", "primary")]⟩, .way ⟨100, true, [1, 2], [("highway", "primary"), ("oneway", "yes")]⟩] =
    .ok ⟨[(0, (2, 10)), (1, (3, 20))], [⟨0, 1, (101, [10, 20])⟩, ⟨1, 0, (101, [20, 10])⟩]⟩ := by
  constructor
  · rw [mem_expected_iff]
    exact ⟨100, by decide +kernel⟩
  · decide +kernel

/-- **C98 fails** for an empty network when components are removed. -/
theorem nothing_fails : prepare Osm.defaults ⟨.none, true, false, false⟩ ([] : List (Osm.Element Int)) = .ub := by decide +kernel

end MM.Prepare
