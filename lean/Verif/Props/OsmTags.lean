import Verif.Model.OsmTags
import Verif.Props.Osm
import Verif.Props.TagFlow

/-!
# C113: what is read from files has the tags it has there
-/

set_option autoImplicit false
set_option linter.unusedSectionVars false

namespace MM.OsmTags

open MM.TagFlow

variable {P : Type}

/-! ### Words -/

/-- The same element without tags of nodes. -/
def Elem.plain : Elem P → Osm.Element P
  | .node n _ => .node n
  | .way w => .way w

/-- A visible node with this identifier came. -/
def Known (es : List (Elem P)) (id : Nat) : Prop := ∃ n ts, Elem.node n ts ∈ es ∧ n.visible = true ∧ n.id = id

/-- Two nodes that follow each other came. -/
def Linked (es : List (Elem P)) (refs : List Nat) : Prop := ∃ l a b r, refs = l ++ a :: b :: r ∧ Known es a ∧ Known es b

/-- The element, coming after `before`, is the node with its tags. -/
def IsNode (id : Nat) (_before : List (Elem P)) (x : Elem P) (ts : List Pair) : Prop :=
  ∃ n, x = .node n ts ∧ n.visible = true ∧ n.id = id

/-- The element, coming after `before`, is a road with this identifier of which something is known, with its tags. -/
def IsRoad (f : Osm.Filters) (i : Nat) (before : List (Elem P)) (x : Elem P) (ts : List Pair) : Prop :=
  ∃ w : Osm.Way, x = .way w ∧ Osm.used f w = true ∧ w.id = i ∧ Linked before w.refs ∧ ts = w.tags

/-- The tags of the first element like that, none if there is no such element. -/
def First (Q : List (Elem P) → Elem P → List Pair → Prop) (l : List (Elem P)) (ts : List Pair) : Prop :=
  (ts = [] ∧ ∀ b x a, l = b ++ x :: a → ∀ us, ¬ Q b x us) ∨
    ∃ b x a, l = b ++ x :: a ∧ Q b x ts ∧ ∀ b' x' a', b = b' ++ x' :: a' → ∀ us, ¬ Q b' x' us

theorem split_snoc {α : Type} {l b a : List α} {x y : α} (h : l ++ [y] = b ++ x :: a) :
    (l = b ∧ y = x ∧ a = []) ∨ ∃ a', a = a' ++ [y] ∧ l = b ++ x :: a' := by
  rcases List.eq_nil_or_concat a with rfl | ⟨a', z, rfl⟩
  · have := List.append_inj' h rfl
    simp only [List.cons.injEq, and_true] at this
    exact .inl ⟨this.1, this.2, rfl⟩
  · rw [List.concat_eq_append, ← List.cons_append, ← List.append_assoc] at h
    have := List.append_inj' h rfl
    simp only [List.cons.injEq, and_true] at this
    exact .inr ⟨a', by rw [List.concat_eq_append, this.2], this.1⟩

theorem first_keep {Q : List (Elem P) → Elem P → List Pair → Prop} {l : List (Elem P)} {x : Elem P} {ts : List Pair} (h : First Q l ts)
    (hx : ∀ us, ¬ Q l x us) : First Q (l ++ [x]) ts := by
  rcases h with ⟨rfl, h⟩ | ⟨b, y, a, rfl, h⟩
  · refine .inl ⟨rfl, fun b y a he us hq => ?_⟩
    rcases split_snoc he with ⟨rfl, rfl, _⟩ | ⟨a', _, h2⟩
    · exact hx us hq
    · exact h b y a' h2 us hq
  · exact .inr ⟨b, y, a ++ [x], by simp, h⟩

theorem first_new {Q : List (Elem P) → Elem P → List Pair → Prop} {l : List (Elem P)} {x : Elem P} {ts : List Pair}
    (h : ∀ b x a, l = b ++ x :: a → ∀ us, ¬ Q b x us) (hx : Q l x ts) : First Q (l ++ [x]) ts :=
  .inr ⟨l, x, [], rfl, hx, h⟩

theorem known_point (es : List (Elem P)) (id : Nat) : Known es id ↔ Osm.firstPoint (es.map Elem.plain) id ≠ none := by
  induction es with
  | nil => simp [Known, Osm.firstPoint]
  | cons e es ih =>
    cases e with
    | node n ts =>
      simp only [List.map_cons, Elem.plain, Osm.firstPoint]
      split
      · next h => simp only [ne_eq, reduceCtorEq, not_false_eq_true, iff_true]; exact ⟨n, ts, List.mem_cons_self, h⟩
      · next h =>
        rw [← ih]
        constructor
        · rintro ⟨m, us, hm, hv⟩
          rcases List.mem_cons.1 hm with he | hm
          · cases he; exact absurd hv h
          · exact ⟨m, us, hm, hv⟩
        · rintro ⟨m, us, hm, hv⟩
          exact ⟨m, us, List.mem_cons_of_mem _ hm, hv⟩
    | way w =>
      simp only [List.map_cons, Elem.plain, Osm.firstPoint]
      rw [← ih]
      constructor
      · rintro ⟨m, us, hm, hv⟩
        rcases List.mem_cons.1 hm with he | hm
        · cases he
        · exact ⟨m, us, hm, hv⟩
      · rintro ⟨m, us, hm, hv⟩
        exact ⟨m, us, List.mem_cons_of_mem _ hm, hv⟩

theorem between_ne (o r : Bool) (i : Nat) (a b : Nat × P) : Osm.between o r i a b ≠ [] := by
  cases o <;> cases r <;> simp [Osm.between]

theorem along_linked (es : List (Elem P)) (o r : Bool) (i : Nat) (refs : List Nat) :
    Osm.along (Osm.firstPoint (es.map Elem.plain)) o r i refs ≠ [] ↔ Linked es refs := by
  induction refs with
  | nil =>
    simp only [Osm.along, ne_eq, not_true_eq_false, false_iff]
    rintro ⟨l, a, b, r, h, _⟩
    simp at h
  | cons a rs ih =>
    cases rs with
    | nil =>
      simp only [Osm.along, ne_eq, not_true_eq_false, false_iff]
      rintro ⟨l, x, y, r, h, _⟩
      have := congrArg List.length h
      simp at this
      omega
    | cons b rs =>
      have hl : Linked es (a :: b :: rs) ↔ (Known es a ∧ Known es b) ∨ Linked es (b :: rs) := by
        constructor
        · rintro ⟨l, x, y, r, h, h1, h2⟩
          cases l with
          | nil =>
            simp only [List.nil_append, List.cons.injEq] at h
            rw [h.1, h.2.1]
            exact .inl ⟨h1, h2⟩
          | cons z l =>
            simp only [List.cons_append, List.cons.injEq] at h
            exact .inr ⟨l, x, y, r, h.2, h1, h2⟩
        · rintro (⟨h1, h2⟩ | ⟨l, x, y, r, h, h1, h2⟩)
          · exact ⟨[], a, b, rs, rfl, h1, h2⟩
          · exact ⟨a :: l, x, y, r, by rw [h]; rfl, h1, h2⟩
      rw [hl, ← ih, Osm.along, known_point, known_point]
      cases Osm.firstPoint (es.map Elem.plain) a with
      | none => simp
      | some p =>
        cases Osm.firstPoint (es.map Elem.plain) b with
        | none => simp
        | some q => simp [between_ne]

/-! ### The storages along the way -/

theorem bind_inv {α β : Type} {x : Outcome α} {f : α → Outcome β} {b : β} (h : x.bind f = .ok b) : ∃ a, x = .ok a ∧ f a = .ok b := by
  cases x with
  | ok a => exact ⟨a, rfl, h⟩
  | throws => simp at h
  | ub => simp at h

/-- Vertices have tags, other nodes have none in the graph. -/
def NodesOk (st : Osm.St P) (t : Told) : Prop := ∀ id, t.nodes id = if id ∈ st.verts.map Prod.fst then t.files id else []

theorem run_append (a b : List Op) : ∀ w : World, w.run (a ++ b) = (w.run a).bind fun w' => w'.run b := by
  induction a with
  | nil => intro w; rfl
  | cons op a ih =>
    intro w
    simp only [List.cons_append, World.run]
    cases w.step op with
    | ok w' => simpa using ih w'
    | throws => rfl
    | ub => rfl

theorem run_one {w w' : World} {op : Op} (h : w.step op = .ok w') : w.run [op] = .ok w' := by
  simp [World.run, h]

theorem addVertex_tags {r : Reader P} {t : Told} (h : Fits r.tags t) (hn : NodesOk r.osm t) (i : Nat) :
    ∃ r' ops, addVertex r i = .ok r' ∧ r'.osm = Osm.addVertex r.osm i ∧ r.tags.run ops = .ok r'.tags ∧ Fits r'.tags (t.run ops) ∧
      NodesOk r'.osm (t.run ops) ∧ (t.run ops).files = t.files ∧ (t.run ops).ways = t.ways ∧ (t.run ops).roads = t.roads ∧
      ∀ o ∈ ops, ∃ j, o = .vertex j := by
  unfold addVertex
  cases hv : r.osm.vertices[i]? with
  | none =>
    refine ⟨r, [], rfl, ?_, rfl, h, hn, rfl, rfl, rfl, by simp⟩
    simp [Osm.addVertex, hv]
  | some v =>
    simp only
    by_cases hi : v.index.isSome = true
    · rw [if_pos hi]
      refine ⟨r, [], rfl, ?_, rfl, h, hn, rfl, rfl, rfl, by simp⟩
      simp [Osm.addVertex, hv, hi]
    · rw [if_neg hi]
      obtain ⟨w', h1, h2⟩ := fits_step h (.vertex v.id)
      refine ⟨⟨Osm.addVertex r.osm i, w'⟩, [.vertex v.id], by rw [h1, Outcome.map_ok], rfl, run_one h1, h2, ?_, rfl, rfl, rfl, by simp⟩
      have hm : (Osm.addVertex r.osm i).verts = r.osm.verts ++ [(v.id, v.point)] := by
        simp [Osm.addVertex, hv, hi]
      intro id
      show first t.nodes v.id (t.files v.id) id = if _ then t.files id else []
      rw [hm]
      simp only [List.map_append, List.map_cons, List.map_nil, List.mem_append, List.mem_singleton]
      by_cases hid : id = v.id
      · subst hid
        rw [if_pos (.inr rfl)]
        simp only [first]
        split
        · simp [at_]
        · next hc =>
          have := hn v.id
          split at this
          · exact this
          · exact absurd this hc
      · have : first t.nodes v.id (t.files v.id) id = t.nodes id := by
          simp only [first]
          split
          · simp [at_, hid]
          · rfl
        rw [this, hn id]
        by_cases hm' : id ∈ r.osm.verts.map Prod.fst
        · rw [if_pos hm', if_pos (.inl hm')]
        · rw [if_neg hm', if_neg (by rintro (h' | h'); exacts [hm' h', hid h'])]

theorem addVertices_tags (ns : List Nat) : ∀ {r : Reader P} {t : Told} {st' : Osm.St P}, Fits r.tags t → NodesOk r.osm t →
    Osm.addVertices r.osm ns = .ok st' →
    ∃ r' ops, addVertices r ns = .ok r' ∧ r'.osm = st' ∧ r.tags.run ops = .ok r'.tags ∧ Fits r'.tags (t.run ops) ∧
      NodesOk r'.osm (t.run ops) ∧ (t.run ops).files = t.files ∧ (t.run ops).ways = t.ways ∧ (t.run ops).roads = t.roads ∧
      ∀ o ∈ ops, ∃ j, o = .vertex j := by
  induction ns with
  | nil =>
    intro r t st' h hn hs
    simp only [Osm.addVertices, Outcome.ok.injEq] at hs
    exact ⟨r, [], rfl, hs, rfl, h, hn, rfl, rfl, rfl, by simp⟩
  | cons n ns ih =>
    intro r t st' h hn hs
    rw [Osm.addVertices] at hs
    obtain ⟨⟨s1, o⟩, hg, hs⟩ := bind_inv hs
    have hv1 : s1.verts = r.osm.verts := by
      unfold Osm.getNode at hg
      obtain ⟨k, _, hk⟩ := bind_inv hg
      simp only [Outcome.ok.injEq, Prod.mk.injEq] at hk
      rw [← hk.1, Osm.checkAndSort]
      split <;> rfl
    have hn1 : NodesOk s1 t := by intro id; rw [hv1]; exact hn id
    have hstep : ∃ r' ops, addFound ⟨s1, r.tags⟩ o = .ok r' ∧ r'.osm = Osm.addFound (s1, o) ∧ r.tags.run ops = .ok r'.tags ∧
        Fits r'.tags (t.run ops) ∧ NodesOk r'.osm (t.run ops) ∧ (t.run ops).files = t.files ∧ (t.run ops).ways = t.ways ∧
        (t.run ops).roads = t.roads ∧ ∀ o ∈ ops, ∃ j, o = .vertex j := by
      cases o with
      | none => exact ⟨⟨s1, r.tags⟩, [], rfl, rfl, rfl, h, hn1, rfl, rfl, rfl, by simp⟩
      | some i => exact addVertex_tags (r := ⟨s1, r.tags⟩) h hn1 i
    obtain ⟨r1, o1, a1, a2, a3, a4, a5, a6, a7, a8, a9⟩ := hstep
    obtain ⟨r2, o2, b1, b2, b3, b4, b5, b6, b7, b8, b9⟩ := ih (r := r1) a4 a5 (by rw [a2]; exact hs)
    refine ⟨r2, o1 ++ o2, ?_, b2, ?_, ?_, ?_, ?_, ?_, ?_, ?_⟩
    · rw [addVertices, hg, Outcome.bind_ok, a1, Outcome.bind_ok, b1]
    · rw [run_append, a3, Outcome.bind_ok, b3]
    · rw [told_append]; exact b4
    · rw [told_append]; exact b5
    · rw [told_append, b6, a6]
    · rw [told_append, b7, a7]
    · rw [told_append, b8, a8]
    · intro o ho
      rcases List.mem_append.1 ho with ho | ho
      · exact a9 o ho
      · exact b9 o ho

/-! ### Edges -/

/-- What the edges of a way change: `n` edges more. -/
structure Grown (w : Osm.Way) (r : Reader P) (t : Told) (r' : Reader P) (n : Nat) : Prop where
  run : r.tags.run (List.replicate n (.edge w.id w.tags)) = .ok r'.tags
  fits : Fits r'.tags (t.run (List.replicate n (.edge w.id w.tags)))
  edges : r'.osm.edges.map Osm.Edge.way = r.osm.edges.map Osm.Edge.way ++ List.replicate n w.id
  verts : r'.osm.verts = r.osm.verts

theorem grown_zero {w : Osm.Way} {r : Reader P} {t : Told} (h : Fits r.tags t) : Grown w r t r 0 :=
  ⟨rfl, h, by simp, rfl⟩

theorem grown_add {w : Osm.Way} {r r1 r2 : Reader P} {t : Told} {n m : Nat} (h : Grown w r t r1 n)
    (h' : Grown w r1 (t.run (List.replicate n (.edge w.id w.tags))) r2 m) : Grown w r t r2 (n + m) := by
  refine ⟨?_, ?_, ?_, h'.verts.trans h.verts⟩
  · rw [List.replicate_add, run_append, h.run, Outcome.bind_ok, h'.run]
  · rw [List.replicate_add, told_append]; exact h'.fits
  · rw [h'.edges, h.edges, List.replicate_add, List.append_assoc]

theorem graphEdge_tags {w : Osm.Way} {r : Reader P} {t : Told} (h : Fits r.tags t) (a b : Osm.Vertex P) :
    ∃ o, graphEdge r w a b = .ok o ∧ o.map Reader.osm = Osm.graphEdge r.osm w.id a b ∧ ∀ r', o = some r' → Grown w r t r' 1 := by
  unfold graphEdge
  cases hg : Osm.graphEdge r.osm w.id a b with
  | none => exact ⟨none, rfl, rfl, by simp⟩
  | some st =>
    obtain ⟨w', h1, h2⟩ := fits_step h (.edge w.id w.tags)
    refine ⟨some ⟨st, w'⟩, by simp only; rw [h1, Outcome.map_ok], rfl, ?_⟩
    rintro r' he
    cases Option.some.inj he
    unfold Osm.graphEdge at hg
    split at hg
    · cases Option.some.inj hg
      exact ⟨run_one h1, h2, by simp, rfl⟩
    · simp at hg

theorem addEdge_tags {w : Osm.Way} {r : Reader P} {t : Told} (h : Fits r.tags t) (oneway reverse : Bool) (a b : Osm.Vertex P) :
    ∃ r' n, addEdge r oneway reverse w a b = .ok r' ∧ r'.osm = Osm.addEdge r.osm oneway reverse w.id a b ∧ Grown w r t r' n := by
  have one : ∀ a b : Osm.Vertex P, ∃ r' n, ((graphEdge r w a b).map fun o => o.getD r) = .ok r' ∧
      r'.osm = (Osm.graphEdge r.osm w.id a b).getD r.osm ∧ Grown w r t r' n := by
    intro a b
    obtain ⟨o, h1, h2, h3⟩ := graphEdge_tags (w := w) h a b
    cases o with
    | none => exact ⟨r, 0, by rw [h1]; rfl, by rw [← h2]; rfl, grown_zero h⟩
    | some r' => exact ⟨r', 1, by rw [h1]; rfl, by rw [← h2]; rfl, h3 r' rfl⟩
  unfold addEdge Osm.addEdge
  cases oneway with
  | true =>
    cases reverse with
    | true => simpa using one b a
    | false => simpa using one a b
  | false =>
    simp only [Bool.false_eq_true, if_false]
    obtain ⟨o, h1, h2, h3⟩ := graphEdge_tags (w := w) h a b
    cases o with
    | none => exact ⟨r, 0, by rw [h1]; rfl, by rw [← h2]; rfl, grown_zero h⟩
    | some r1 =>
      have hg := h3 r1 rfl
      obtain ⟨o2, k1, k2, k3⟩ := graphEdge_tags (w := w) hg.fits b a
      rw [h1, ← h2]
      simp only [Outcome.bind_ok, Option.map_some]
      cases o2 with
      | none => exact ⟨r1, 1, by rw [k1]; rfl, by rw [← k2]; rfl, hg⟩
      | some r2 => exact ⟨r2, 1 + 1, by rw [k1]; rfl, by rw [← k2]; rfl, grown_add hg (k3 r2 rfl)⟩

theorem pairEdge_tags (f : Osm.Filters) {w : Osm.Way} {r : Reader P} {t : Told} (h : Fits r.tags t) (i j : Option Nat) :
    ∃ r' n, pairEdge f w r i j = .ok r' ∧ r'.osm = Osm.pairEdge f w r.osm i j ∧ Grown w r t r' n := by
  unfold pairEdge Osm.pairEdge
  cases i with
  | none => exact ⟨r, 0, rfl, rfl, grown_zero h⟩
  | some i =>
    cases j with
    | none => exact ⟨r, 0, rfl, rfl, grown_zero h⟩
    | some j =>
      simp only
      cases r.osm.vertices[i]? with
      | none => exact ⟨r, 0, rfl, rfl, grown_zero h⟩
      | some a =>
        cases r.osm.vertices[j]? with
        | none => exact ⟨r, 0, rfl, rfl, grown_zero h⟩
        | some b => exact addEdge_tags h _ _ a b

theorem getNode_same {st st' : Osm.St P} {id : Nat} {o : Option Nat} (h : Osm.getNode st id = .ok (st', o)) :
    st'.verts = st.verts ∧ st'.edges = st.edges := by
  unfold Osm.getNode at h
  obtain ⟨k, _, hk⟩ := bind_inv h
  simp only [Outcome.ok.injEq, Prod.mk.injEq] at hk
  rw [← hk.1, Osm.checkAndSort]
  split <;> exact ⟨rfl, rfl⟩

theorem addEdges_tags (f : Osm.Filters) (w : Osm.Way) (rs : List Nat) : ∀ {r : Reader P} {t : Told} {st' : Osm.St P}, Fits r.tags t →
    Osm.addEdges f w r.osm rs = .ok st' → ∃ r' n, addEdges f w r rs = .ok r' ∧ r'.osm = st' ∧ Grown w r t r' n := by
  induction rs with
  | nil => intro r t st' h hs; simp [Osm.addEdges] at hs
  | cons a rs ih =>
    cases rs with
    | nil =>
      intro r t st' h hs
      simp only [Osm.addEdges, Outcome.ok.injEq] at hs
      exact ⟨r, 0, rfl, hs, grown_zero h⟩
    | cons b rs =>
      intro r t st' h hs
      rw [Osm.addEdges] at hs
      obtain ⟨⟨s1, o1⟩, hg1, hs⟩ := bind_inv hs
      obtain ⟨⟨s2, o2⟩, hg2, hs⟩ := bind_inv hs
      obtain ⟨v1, e1⟩ := getNode_same hg1
      obtain ⟨v2, e2⟩ := getNode_same hg2
      obtain ⟨r1, n, a1, a2, a3⟩ := pairEdge_tags f (w := w) (r := ⟨s2, r.tags⟩) h o1 o2
      obtain ⟨r2, m, b1, b2, b3⟩ := ih (r := r1) a3.fits (by rw [a2]; exact hs)
      have a4 : Grown w r t r1 n := ⟨a3.run, a3.fits, by rw [a3.edges]; simp only; rw [e2, e1], by rw [a3.verts]; simp only; rw [v2, v1]⟩
      refine ⟨r2, n + m, ?_, b2, grown_add a4 b3⟩
      rw [addEdges, hg1, Outcome.bind_ok, hg2, Outcome.bind_ok, a1, Outcome.bind_ok, b1]

theorem first_twice (g : Nat → List Pair) (i : Nat) (ts : List Pair) : first (first g i ts) i ts = first g i ts := by
  by_cases h : g i = []
  · by_cases ht : ts = []
    · have : at_ g i ts = g := by
        funext k
        simp only [at_]
        split
        · next hk => rw [hk, h, ht]
        · rfl
      have h1 : first g i ts = g := by rw [first, if_pos h, this]
      rw [h1, h1]
    · have h1 : first g i ts = at_ g i ts := by rw [first, if_pos h]
      rw [h1, first, if_neg (by simpa [at_] using ht)]
  · have h1 : first g i ts = g := by rw [first, if_neg h]
    rw [h1, h1]

theorem told_edges (t : Told) (i : Nat) (ts : List Pair) (n : Nat) : (t.run (List.replicate n (.edge i ts))).files = t.files ∧
    (t.run (List.replicate n (.edge i ts))).nodes = t.nodes ∧
    (t.run (List.replicate n (.edge i ts))).roads = t.roads ++ List.replicate n ⟨i, [i]⟩ ∧
    (t.run (List.replicate n (.edge i ts))).ways = if n = 0 then t.ways else first t.ways i ts := by
  induction n generalizing t with
  | zero => simp [Told.run]
  | succ n ih =>
    have hr : t.run (List.replicate (n + 1) (.edge i ts)) = (t.step (.edge i ts)).run (List.replicate n (.edge i ts)) := rfl
    obtain ⟨h1, h2, h3, h4⟩ := ih (t.step (.edge i ts))
    refine ⟨by rw [hr, h1]; rfl, by rw [hr, h2]; rfl, ?_, ?_⟩
    · rw [hr, h3]
      show (t.roads ++ [⟨i, [i]⟩]) ++ _ = _
      rw [List.append_assoc, List.replicate_succ]
      rfl
    · rw [hr, h4, if_neg (Nat.succ_ne_zero n)]
      show (if n = 0 then first t.ways i ts else first (first t.ways i ts) i ts) = _
      split
      · rfl
      · exact first_twice _ _ _

/-! ### Whole files -/

theorem used_tags {f : Osm.Filters} {w : Osm.Way} (h : Osm.used f w = true) : w.tags ≠ [] := by
  intro ht
  simp [Osm.used, Osm.keep, ht] at h

/-- What is true after the elements `pre`; `ops` happened to the tags. -/
structure Tagged (f : Osm.Filters) (pre : List (Elem P)) (r : Reader P) (ops : List Op) : Prop where
  run : ({} : World).run ops = .ok r.tags
  fits : Fits r.tags (Told.run {} ops)
  inv : Osm.Inv r.osm
  knows : Osm.Knows r.osm (Osm.firstPoint (pre.map Elem.plain))
  nodesOk : NodesOk r.osm (Told.run {} ops)
  files : ∀ id, First (IsNode id) pre ((Told.run {} ops).files id)
  ways : ∀ i, First (IsRoad f i) pre ((Told.run {} ops).ways i)
  roads : (Told.run {} ops).roads = (r.osm.edges.map Osm.Edge.way).map fun i => ⟨i, [i]⟩
  source : ∀ i ts, .edge i ts ∈ ops → ∃ w : Osm.Way, Elem.way w ∈ pre ∧ Osm.used f w = true ∧ w.id = i ∧ ts = w.tags
  merges : ∀ c a b, .merge c a b ∉ ops
  placed : ∀ e ∈ r.osm.edges, ∃ b w a, pre = b ++ Elem.way w :: a ∧ Osm.used f w = true ∧ w.id = e.way ∧ Linked b w.refs

theorem not_road_node {f : Osm.Filters} {i : Nat} {l : List (Elem P)} {n : Osm.Node P} {ts us : List Pair} : ¬ IsRoad f i l (.node n ts) us := by
  rintro ⟨w, h, _⟩
  cases h

theorem not_node_way {id : Nat} {l : List (Elem P)} {w : Osm.Way} {us : List Pair} : ¬ IsNode id l (.way w) us := by
  rintro ⟨n, h, _⟩
  cases h

theorem known_first {l : List (Elem P)} {id : Nat} : Known l id ↔ ¬ ∀ b x a, l = b ++ x :: a → ∀ us, ¬ IsNode id b x us := by
  constructor
  · rintro ⟨n, ts, hm, hv⟩ h
    obtain ⟨b, a, he⟩ := List.append_of_mem hm
    exact h b _ a he ts ⟨n, rfl, hv⟩
  · intro h
    by_contra hk
    apply h
    rintro b x a rfl us ⟨n, rfl, hv⟩
    exact hk ⟨n, us, by simp, hv⟩

theorem placed_snoc {f : Osm.Filters} {pre : List (Elem P)} {x : Elem P} {j : Nat}
    (h : ∃ b w a, pre = b ++ Elem.way w :: a ∧ Osm.used f w = true ∧ w.id = j ∧ Linked b w.refs) :
    ∃ b w a, pre ++ [x] = b ++ Elem.way w :: a ∧ Osm.used f w = true ∧ w.id = j ∧ Linked b w.refs := by
  obtain ⟨b, w, a, rfl, h⟩ := h
  exact ⟨b, w, a ++ [x], by simp, h⟩

theorem node_tagged {f : Osm.Filters} {pre : List (Elem P)} {r : Reader P} {ops : List Op} (h : Tagged f pre r ops) (n : Osm.Node P)
    (ts : List Pair) : ∃ r' ops', node r n ts = .ok r' ∧ Osm.node r.osm n = .ok r'.osm ∧ Tagged f (pre ++ [.node n ts]) r' ops' := by
  obtain ⟨st', h1, h2, h3, h4, _, _⟩ := Osm.element_spec f (pre.map Elem.plain) (.node n) h.inv h.knows (by intro w hw; simp at hw)
  have h1 : Osm.node r.osm n = .ok st' := h1
  have hex : (pre ++ [Elem.node n ts]).map Elem.plain = pre.map Elem.plain ++ [.node n] := by simp [Elem.plain]
  obtain ⟨st'', g1, g2, gv, ge, _⟩ := Osm.node_spec h.inv n
  rw [h1] at g1
  cases Outcome.ok.inj g1
  have hways : ∀ i, First (IsRoad f i) (pre ++ [.node n ts]) ((Told.run {} ops).ways i) :=
    fun i => first_keep (h.ways i) fun us => not_road_node
  have hsrc : ∀ i us, .edge i us ∈ ops → ∃ w : Osm.Way, Elem.way w ∈ pre ++ [.node n ts] ∧ Osm.used f w = true ∧ w.id = i ∧ us = w.tags := by
    intro i us hm
    obtain ⟨w, a, b⟩ := h.source i us hm
    exact ⟨w, List.mem_append_left _ a, b⟩
  have same : (∀ us id, ¬ IsNode id pre (.node n ts) us ∨ Known pre id) → Tagged f (pre ++ [.node n ts]) ⟨st', r.tags⟩ ops := by
    intro hk
    refine ⟨h.run, h.fits, h2, by rw [hex]; exact h3, by intro id; rw [gv]; exact h.nodesOk id, ?_, hways, by rw [ge]; exact h.roads, hsrc,
      h.merges, fun e he => placed_snoc (h.placed e (by rw [← ge]; exact he))⟩
    intro id
    rcases h.files id with ⟨hn, hno⟩ | ⟨b, x, a, rfl, hb⟩
    · refine first_keep (.inl ⟨hn, hno⟩) fun us hq => ?_
      rcases hk us id with h' | h'
      · exact h' hq
      · exact known_first.1 h' hno
    · exact .inr ⟨b, x, a ++ [.node n ts], by simp, hb⟩
  have hrun := h1
  unfold Osm.node at h1
  unfold node
  by_cases hv : n.visible = true
  · rw [if_pos hv] at h1 ⊢
    obtain ⟨⟨s1, c⟩, hc, hs⟩ := bind_inv h1
    rw [hc, Outcome.bind_ok]
    have hs1 : s1.verts = r.osm.verts ∧ s1.edges = r.osm.edges ∧ (∀ id p, (id, p) ∈ Osm.plain s1.vertices ↔ (id, p) ∈ Osm.plain r.osm.vertices) ∧
        (c = false → ∀ p, (n.id, p) ∉ Osm.plain r.osm.vertices) ∧ (c = true → ∃ p, (n.id, p) ∈ Osm.plain r.osm.vertices) := by
      obtain ⟨s2, o, k1, k2, k3, k4, k5, _, _, k8, k9⟩ := Osm.getNode_spec h.inv n.id
      unfold Osm.getNode at k1
      unfold Osm.containsNode at hc
      obtain ⟨i, hi, k1⟩ := bind_inv k1
      rw [hi, Outcome.bind_ok] at hc
      simp only [Outcome.ok.injEq, Prod.mk.injEq] at k1 hc
      obtain ⟨e1, e2⟩ := k1
      obtain ⟨e3, e4⟩ := hc
      rw [e2] at e4
      rw [e1] at e3
      subst e3
      refine ⟨k4, k5, fun id p => Osm.plain_perm k3 id p, ?_, ?_⟩
      · rintro rfl p hp
        have ho : o = none := by simpa using e4
        obtain ⟨v, hv, he⟩ := List.mem_map.1 hp
        simp only [Prod.mk.injEq] at he
        exact k9 ho v hv he.1
      · rintro rfl
        obtain ⟨i, ho⟩ := Option.isSome_iff_exists.1 e4
        obtain ⟨v, hv, he⟩ := k8 i ho
        exact ⟨v.point, (Osm.plain_perm k3 _ _).1 (List.mem_map.2 ⟨v, List.mem_of_getElem? hv, by rw [he]⟩)⟩
    obtain ⟨p1, p2, p3, p4, p5⟩ := hs1
    cases c with
    | true =>
      simp only [if_true] at hs ⊢
      cases Outcome.ok.inj hs
      refine ⟨_, ops, rfl, hrun, same ?_⟩
      rintro us id
      by_cases hid : n.id = id
      · right
        obtain ⟨p, hp⟩ := p5 rfl
        rw [known_point, ← hid, (h.knows n.id p).1 hp]
        simp
      · left
        rintro ⟨m, he, _, hm⟩
        cases he
        exact hid hm
    | false =>
      simp only [Bool.false_eq_true, if_false] at hs ⊢
      cases Outcome.ok.inj hs
      obtain ⟨w', k1, k2⟩ := fits_step h.fits (.node n.id ts)
      have hno : ∀ b x a, pre = b ++ x :: a → ∀ us, ¬ IsNode n.id b x us := by
        by_contra hc'
        have := known_first.2 hc'
        rw [known_point] at this
        obtain ⟨p, hp⟩ := Option.ne_none_iff_exists'.1 this
        exact p4 rfl p ((h.knows _ _).2 hp)
      have hf0 : (Told.run {} ops).files n.id = [] := by
        rcases h.files n.id with h' | ⟨b, x, a, he, hq, _⟩
        · exact h'.1
        · exact absurd hq (hno b x a he _)
      have htold : Told.run {} (ops ++ [.node n.id ts]) = (Told.run {} ops).step (.node n.id ts) := by rw [told_append]; rfl
      have hfiles : ((Told.run {} ops).step (.node n.id ts)).files = at_ (Told.run {} ops).files n.id ts := by
        simp [Told.step, first, hf0]
      refine ⟨⟨Osm.addNode s1 n.id n.point, w'⟩, ops ++ [.node n.id ts],
        by show ((r.tags.step (.node n.id ts)).map _) = _; rw [k1]; rfl, hrun, ?_⟩
      refine ⟨by rw [run_append, h.run, Outcome.bind_ok, run_one k1], by rw [htold]; exact k2, h2, by rw [hex]; exact h3, ?_, ?_, ?_, ?_, ?_, ?_,
        fun e he => placed_snoc (h.placed e (by rw [← ge]; exact he))⟩
      · intro id
        rw [htold, hfiles]
        show (Told.run {} ops).nodes id = _
        rw [h.nodesOk id, gv]
        by_cases hm : id ∈ r.osm.verts.map Prod.fst
        · rw [if_pos hm, if_pos hm]
          have : id ≠ n.id := by
            rintro rfl
            obtain ⟨⟨id', p⟩, hp, hid⟩ := List.mem_map.1 hm
            simp only at hid
            obtain ⟨k, hk⟩ := List.getElem?_of_mem hp
            refine p4 rfl p ?_
            rw [← hid]
            exact List.mem_map.2 ⟨_, (h.inv.index k id' p).1 hk, rfl⟩
          simp [at_, this]
        · rw [if_neg hm, if_neg hm]
      · intro id
        rw [htold, hfiles]
        by_cases hid : id = n.id
        · subst hid
          simp only [at_, if_true]
          exact first_new hno ⟨n, rfl, hv, rfl⟩
        · simp only [at_, hid, if_false]
          refine first_keep (h.files id) ?_
          rintro us ⟨m, he, _, hm⟩
          cases he
          exact hid hm.symm
      · intro i
        rw [htold]
        exact hways i
      · rw [htold]
        show (Told.run {} ops).roads = _
        rw [h.roads, ge]
      · intro i us hm
        rcases List.mem_append.1 hm with hm | hm
        · exact hsrc i us hm
        · simp at hm
      · intro c a b hm
        rcases List.mem_append.1 hm with hm | hm
        · exact h.merges c a b hm
        · simp at hm
  · rw [if_neg hv] at h1 ⊢
    cases Outcome.ok.inj h1
    refine ⟨r, ops, rfl, by rw [Osm.node, if_neg hv], same ?_⟩
    intro us id
    left
    rintro ⟨m, he, hm, _⟩
    cases he
    exact hv hm

theorem way_tagged {f : Osm.Filters} {pre : List (Elem P)} {r : Reader P} {ops : List Op} (h : Tagged f pre r ops) (w : Osm.Way)
    (hne : Osm.used f w = true → w.refs ≠ []) :
    ∃ r' ops', way f r w = .ok r' ∧ Osm.way f r.osm w = .ok r'.osm ∧ Tagged f (pre ++ [.way w]) r' ops' := by
  obtain ⟨st', h1, h2, h3, h4, _, _⟩ := Osm.element_spec f (pre.map Elem.plain) (.way w) h.inv h.knows
    (by intro w' hw; simp only [List.mem_singleton, Osm.Element.way.injEq] at hw; subst hw; exact hne)
  have h1 : Osm.way f r.osm w = .ok st' := h1
  have hex : (pre ++ [Elem.way w]).map Elem.plain = pre.map Elem.plain ++ [.way w] := by simp [Elem.plain]
  have hu : (w.visible && Osm.keep f w.tags) = Osm.used f w := rfl
  have hfiles : ∀ id, First (IsNode id) (pre ++ [.way w]) ((Told.run {} ops).files id) :=
    fun id => first_keep (h.files id) fun us => not_node_way
  unfold Osm.way at h1
  unfold way
  rw [hu] at h1 ⊢
  by_cases hus : Osm.used f w = true
  swap
  · rw [if_neg hus] at h1 ⊢
    cases Outcome.ok.inj h1
    refine ⟨r, ops, rfl, by rw [Osm.way, hu, if_neg hus], ⟨h.run, h.fits, h2, by rw [hex]; exact h3, h.nodesOk, hfiles, ?_, h.roads, ?_, h.merges,
      fun e he => placed_snoc (h.placed e he)⟩⟩
    · intro i
      refine first_keep (h.ways i) ?_
      rintro us ⟨w', he, hw', _⟩
      cases he
      exact hus hw'
    · intro i us hm
      obtain ⟨w', a, b⟩ := h.source i us hm
      exact ⟨w', List.mem_append_left _ a, b⟩
  rw [if_pos hus] at h1 ⊢
  obtain ⟨s1, hs1, hs2⟩ := bind_inv h1
  obtain ⟨r1, o1, a1, a2, a3, a4, a5, a6, a7, a8, a9⟩ := addVertices_tags w.refs h.fits h.nodesOk hs1
  obtain ⟨r2, n, b1, b2, b3⟩ := addEdges_tags f w w.refs (r := r1) a4 (by rw [a2]; exact hs2)
  obtain ⟨c1, c2, c3, c4⟩ := told_edges ((Told.run {} ops).run o1) w.id w.tags n
  obtain ⟨st1, d1, _, _, d4, _, _⟩ := Osm.addVertices_spec w.refs h.inv
  rw [hs1] at d1
  cases Outcome.ok.inj d1
  have htold : Told.run {} (ops ++ (o1 ++ List.replicate n (.edge w.id w.tags))) =
      ((Told.run {} ops).run o1).run (List.replicate n (.edge w.id w.tags)) := by rw [told_append, told_append]
  -- edges were made exactly if two nodes were known
  have hlink : n ≠ 0 ↔ Linked pre w.refs := by
    rw [← along_linked pre (Osm.detectOneway f w.tags).1 (Osm.detectOneway f w.tags).2 w.id w.refs]
    have hl := congrArg List.length h4
    simp only [Osm.expected, if_pos hus, List.append_nil, List.length_map, List.length_append] at hl
    have he := congrArg List.length b3.edges
    simp only [List.length_map, List.length_append, List.length_replicate] at he
    rw [b2, a2, d4] at he
    rw [← List.length_pos_iff]
    omega
  refine ⟨r2, ops ++ (o1 ++ List.replicate n (.edge w.id w.tags)), by rw [a1, Outcome.bind_ok, b1], ?_, ?_⟩
  · rw [Osm.way, hu, if_pos hus, hs1, Outcome.bind_ok, hs2, b2]
  refine ⟨?_, by rw [htold]; exact b3.fits, by rw [b2]; exact h2, by rw [b2, hex]; exact h3, ?_, ?_, ?_, ?_, ?_, ?_, ?_⟩
  · rw [run_append, h.run, Outcome.bind_ok, run_append, a3, Outcome.bind_ok, b3.run]
  · intro id
    rw [htold, c2, c1, b3.verts]
    exact a5 id
  · intro id
    rw [htold, c1, a6]
    exact hfiles id
  · intro i
    rw [htold, c4, a7]
    by_cases hn : n = 0
    · rw [if_pos hn]
      refine first_keep (h.ways i) ?_
      rintro us ⟨w', he, _, _, hl, _⟩
      cases he
      exact hlink.2 hl hn
    · rw [if_neg hn]
      by_cases hi : i = w.id
      · subst hi
        rcases h.ways w.id with ⟨h0, hno⟩ | ⟨b, x, a, he, hq, hno⟩
        · rw [first, if_pos h0]
          simp only [at_, if_true]
          exact first_new hno ⟨w, rfl, hus, rfl, hlink.1 hn, rfl⟩
        · have hnn : (Told.run {} ops).ways w.id ≠ [] := by
            obtain ⟨w', _, hu', _, _, ht⟩ := hq
            rw [ht]
            exact used_tags hu'
          rw [first, if_neg hnn]
          exact .inr ⟨b, x, a ++ [.way w], by rw [he]; simp, hq, hno⟩
      · have : first (Told.run {} ops).ways w.id w.tags i = (Told.run {} ops).ways i := by
          rw [first]
          split
          · simp [at_, hi]
          · rfl
        rw [this]
        refine first_keep (h.ways i) ?_
        rintro us ⟨w', he, _, hw', _⟩
        cases he
        exact hi hw'.symm
  · rw [htold, c3, a8, h.roads, b3.edges, a2, d4]
    simp
  · intro i us hm
    rcases List.mem_append.1 hm with hm | hm
    · obtain ⟨w', a, b⟩ := h.source i us hm
      exact ⟨w', List.mem_append_left _ a, b⟩
    · rcases List.mem_append.1 hm with hm | hm
      · obtain ⟨j, hj⟩ := a9 _ hm
        cases hj
      · have := List.eq_of_mem_replicate hm
        cases this
        exact ⟨w, by simp, hus, rfl, rfl⟩
  · intro c a b hm
    rcases List.mem_append.1 hm with hm | hm
    · exact h.merges c a b hm
    · rcases List.mem_append.1 hm with hm | hm
      · obtain ⟨j, hj⟩ := a9 _ hm
        cases hj
      · have := List.eq_of_mem_replicate hm
        cases this
  · intro e he
    have hm : e.way ∈ r2.osm.edges.map Osm.Edge.way := List.mem_map.2 ⟨e, he, rfl⟩
    rw [b3.edges, a2, d4] at hm
    rcases List.mem_append.1 hm with hm | hm
    · obtain ⟨e', he', hw⟩ := List.mem_map.1 hm
      rw [← hw]
      exact placed_snoc (h.placed e' he')
    · have h0 := List.mem_replicate.1 hm
      exact ⟨pre, w, [], rfl, hus, h0.2.symm, hlink.1 h0.1⟩

theorem tagged_empty (f : Osm.Filters) : Tagged f ([] : List (Elem P)) {} [] := by
  refine ⟨rfl, fits_empty, Osm.inv_empty, by intro id p; simp [Osm.St.empty, Osm.plain, Osm.firstPoint], ?_, ?_, ?_, rfl, by simp, by simp,
    by simp [Osm.St.empty]⟩
  · intro id
    simp [Osm.St.empty, Told.run]
  · intro id
    exact .inl ⟨rfl, fun b x a h => by simp at h⟩
  · intro i
    exact .inl ⟨rfl, fun b x a h => by simp at h⟩

/-- No road of the files is without nodes. -/
def NoEmpty (f : Osm.Filters) (es : List (Elem P)) : Prop := ∀ w, .way w ∈ es → Osm.used f w = true → w.refs ≠ []

theorem run_tagged (f : Osm.Filters) (es : List (Elem P)) : ∀ {pre : List (Elem P)} {r : Reader P} {ops : List Op}, Tagged f pre r ops →
    NoEmpty f es → ∃ r' ops', run f r es = .ok r' ∧ Osm.run f r.osm (es.map Elem.plain) = .ok r'.osm ∧ Tagged f (pre ++ es) r' ops' := by
  induction es with
  | nil => intro pre r ops h _; exact ⟨r, ops, rfl, rfl, by simpa using h⟩
  | cons e es ih =>
    intro pre r ops h hne
    have hstep : ∃ r' ops', element f r e = .ok r' ∧ Osm.element f r.osm e.plain = .ok r'.osm ∧ Tagged f (pre ++ [e]) r' ops' := by
      cases e with
      | node n ts => exact node_tagged h n ts
      | way w => exact way_tagged h w (hne w List.mem_cons_self)
    obtain ⟨r1, o1, a1, a2, a3⟩ := hstep
    obtain ⟨r2, o2, b1, b2, b3⟩ := ih a3 (fun w hw => hne w (List.mem_cons_of_mem _ hw))
    refine ⟨r2, o2, by rw [run, a1, Outcome.bind_ok, b1], ?_, by simpa using b3⟩
    rw [List.map_cons, Osm.run, a2, Outcome.bind_ok, b2]

theorem tagged_reads {f : Osm.Filters} {es : List (Elem P)} {r : Reader P} {ops : List Op} (h : Tagged f es r ops) (i : Nat) :
    r.tags.graph.read .nodes i = .ok ((Told.run {} ops).nodes i) ∧ r.tags.graph.read .edges i = .ok ((Told.run {} ops).ways i) := by
  obtain ⟨w', h1, _, h2⟩ := tags_exact ops
  rw [h.run] at h1
  cases Outcome.ok.inj h1
  exact ⟨(h2 i).2.1, (h2 i).2.2⟩

/-- **C113, in part.**  Reading files comes to an end without an exception, and the tags change nothing about the graph.  Each vertex has
exactly the tags of the first visible node with its identifier, whose point it has too; a node that is no vertex leaves no tags in the
graph.  Missing from the full property: roads without nodes (`Osm.empty_way_fails`). -/
theorem vertex_tags_partial (f : Osm.Filters) (es : List (Elem P)) (hne : NoEmpty f es) : ∃ r, run f {} es = .ok r ∧
    Osm.run f Osm.St.empty (es.map Elem.plain) = .ok r.osm ∧
    (∀ id p, (id, p) ∈ r.osm.verts → ∃ b n ts a, es = b ++ .node n ts :: a ∧ n.visible = true ∧ n.id = id ∧ n.point = p ∧ ¬ Known b id ∧
      r.tags.graph.read .nodes id = .ok ts) ∧
    ∀ id, id ∉ r.osm.verts.map Prod.fst → r.tags.graph.read .nodes id = .ok [] := by
  obtain ⟨r, ops, h1, h2, h3⟩ := run_tagged f es (tagged_empty f) hne
  rw [List.nil_append] at h3
  refine ⟨r, h1, h2, ?_, ?_⟩
  · intro id p hp
    have hm : id ∈ r.osm.verts.map Prod.fst := List.mem_map.2 ⟨_, hp, rfl⟩
    obtain ⟨k, hk⟩ := List.getElem?_of_mem hp
    have hkn := (h3.knows id p).1 (List.mem_map.2 ⟨_, (h3.inv.index k id p).1 hk, rfl⟩)
    have hK : Known es id := by rw [known_point, hkn]; simp
    rcases h3.files id with ⟨_, hno⟩ | ⟨b, x, a, he, ⟨n, hx, hv, hid⟩, hno⟩
    · exact absurd hno (known_first.1 hK)
    · subst hx
      have hb : ¬ Known b id := fun hb => known_first.1 hb hno
      refine ⟨b, n, _, a, he, hv, hid, ?_, hb, ?_⟩
      · have hfp : ∀ l : List (Elem P), ¬ Known l id → Osm.firstPoint ((l ++ .node n ((Told.run {} ops).files id) :: a).map Elem.plain) id =
            some n.point := by
          intro l
          induction l with
          | nil => intro _; simp [Elem.plain, Osm.firstPoint, hv, hid]
          | cons y l ih =>
            intro hl
            have hl' : ¬ Known l id := fun ⟨m, us, hm, hh⟩ => hl ⟨m, us, List.mem_cons_of_mem _ hm, hh⟩
            cases y with
            | way w => simpa [Elem.plain, Osm.firstPoint] using ih hl'
            | node m us =>
              have : ¬ (m.visible = true ∧ m.id = id) := fun hh => hl ⟨m, us, List.mem_cons_self, hh⟩
              simp only [List.cons_append, List.map_cons, Elem.plain, Osm.firstPoint]
              rw [if_neg this]
              exact ih hl'
        have := hfp b hb
        rw [← he, hkn] at this
        exact (Option.some.inj this).symm
      · rw [(tagged_reads h3 id).1, h3.nodesOk id, if_pos hm]
  · intro id hm
    rw [(tagged_reads h3 id).1, h3.nodesOk id, if_neg hm]

/-- **C113, in part.**  Each edge has exactly the tags of the first road with its identifier of which two neighbouring nodes were known.
Missing: roads without nodes. -/
theorem edge_tags_partial (f : Osm.Filters) (es : List (Elem P)) (hne : NoEmpty f es) : ∃ r, run f {} es = .ok r ∧
    Osm.run f Osm.St.empty (es.map Elem.plain) = .ok r.osm ∧
    ∀ e ∈ r.osm.edges, ∃ b w a, es = b ++ .way w :: a ∧ Osm.used f w = true ∧ w.id = e.way ∧ Linked b w.refs ∧
      (∀ b' w' a', b = b' ++ .way w' :: a' → Osm.used f w' = true → w'.id = e.way → ¬ Linked b' w'.refs) ∧
      r.tags.graph.read .edges e.way = .ok w.tags := by
  obtain ⟨r, ops, h1, h2, h3⟩ := run_tagged f es (tagged_empty f) hne
  rw [List.nil_append] at h3
  refine ⟨r, h1, h2, ?_⟩
  intro e he
  obtain ⟨b0, w0, a0, e0, u0, i0, l0⟩ := h3.placed e he
  rcases h3.ways e.way with ⟨_, hno⟩ | ⟨b, x, a, hes, ⟨w, hx, hu, hi, hl, ht⟩, hno⟩
  · exact absurd ⟨w0, rfl, u0, i0, l0, rfl⟩ (hno b0 _ a0 e0 w0.tags)
  · subst hx
    refine ⟨b, w, a, hes, hu, hi, hl, ?_, by rw [(tagged_reads h3 e.way).2, ht]⟩
    intro b' w' a' hb hu' hi' hl'
    exact hno b' _ a' hb w'.tags ⟨w', rfl, hu', hi', hl', rfl⟩

/-- Roads with the same identifier have the same tags. -/
def SameTags (f : Osm.Filters) (es : List (Elem P)) : Prop := ∀ w w' : Osm.Way, .way w ∈ es → .way w' ∈ es → Osm.used f w = true →
  Osm.used f w' = true → w.id = w'.id → w.tags = w'.tags

/-- **C113, in part**, from the files to the prepared network: after simplifying (not completely) and compressing, each edge of the network
has exactly the tags of every road with its identifier and consists of nothing else, and each vertex that is kept has the tags it was
read with.  Missing: roads without nodes, roads with the same identifier and other tags (`version_fails`), complete simplification
(`TagFlow.spread_fails`). -/
theorem prepared_tags_partial (f : Osm.Filters) (es : List (Elem P)) (hne : NoEmpty f es) (hs : SameTags f es) (pairs : List (Nat × Nat))
    (keep : List Nat) : ∃ r g b, run f {} es = .ok r ∧ simplify false r.tags pairs = .ok g ∧
      compress g.graph (keep.map (Prod.mk Which.nodes) ++ g.roads.map fun x => (Which.edges, x.id)) = .ok b ∧
      (∀ x ∈ g.roads, ∀ w, .way w ∈ es → Osm.used f w = true → w.id = x.id → b.read .edges x.id = .ok w.tags ∧ ∀ p ∈ x.parts, p = w.id) ∧
      (∀ id ∈ keep, b.read .nodes id = r.tags.graph.read .nodes id) ∧
      ∀ x ∈ g.roads, ∃ w, .way w ∈ es ∧ Osm.used f w = true ∧ w.id = x.id := by
  obtain ⟨r, ops, h1, h2, h3⟩ := run_tagged f es (tagged_empty f) hne
  rw [List.nil_append] at h3
  obtain ⟨g, hg, hfit⟩ := fits_run (pairs.map fun p => Op.merge false p.1 p.2) h3.fits
  have hall : ({} : World).run (ops ++ pairs.map fun p => Op.merge false p.1 p.2) = .ok g := by
    rw [run_append, h3.run, Outcome.bind_ok, hg]
  -- tags of the roads of the files
  have hW : ∃ W : Nat → List Pair, ∀ w : Osm.Way, Elem.way w ∈ es → Osm.used f w = true → W w.id = w.tags := by
    classical
    refine ⟨fun i => if h : ∃ w : Osm.Way, Elem.way w ∈ es ∧ Osm.used f w = true ∧ w.id = i then h.choose.tags else [], ?_⟩
    intro w hw hu
    have hex : ∃ w' : Osm.Way, Elem.way w' ∈ es ∧ Osm.used f w' = true ∧ w'.id = w.id := ⟨w, hw, hu, rfl⟩
    simp only [dif_pos hex]
    obtain ⟨c1, c2, c3⟩ := hex.choose_spec
    exact hs _ _ c1 hw c2 hu c3
  obtain ⟨W, hW⟩ := hW
  have hc : Consistent W (ops ++ pairs.map fun p => Op.merge false p.1 p.2) := by
    intro i ts hm
    rcases List.mem_append.1 hm with hm | hm
    · obtain ⟨w, hw, hu, hi, ht⟩ := h3.source i ts hm
      rw [ht, ← hi, hW w hw hu]
    · simp at hm
  have hm : ∀ c a b, Op.merge c a b ∈ ops ++ pairs.map (fun p => Op.merge false p.1 p.2) → c = false := by
    intro c a b hm
    rcases List.mem_append.1 hm with hm | hm
    · exact absurd hm (h3.merges c a b)
    · obtain ⟨p, _, hp⟩ := List.mem_map.1 hm
      cases hp
      rfl
  obtain ⟨b, hb, hread⟩ := compress_exact _ hall (keep.map (Prod.mk Which.nodes) ++ g.roads.map fun x => (Which.edges, x.id))
  have hroad := road_tags_partial _ W hc hm hall
  refine ⟨r, g, b, h1, hg, hb, ?_, ?_, ?_⟩
  · intro x hx w hw hu hi
    have hin : (Which.edges, x.id) ∈ keep.map (Prod.mk Which.nodes) ++ g.roads.map fun x => (Which.edges, x.id) :=
      List.mem_append_right _ (List.mem_map.2 ⟨x, hx, rfl⟩)
    refine ⟨?_, fun p hp => by rw [hi]; exact (hroad x hx).2 p hp⟩
    rw [hread, if_pos hin, (hroad x hx).1, ← hi, hW w hw hu]
  · intro id hid
    have hin : (Which.nodes, id) ∈ keep.map (Prod.mk Which.nodes) ++ g.roads.map fun x => (Which.edges, x.id) :=
      List.mem_append_left _ (List.mem_map.2 ⟨id, hid, rfl⟩)
    rw [hread, if_pos hin]
    obtain ⟨w', k1, _, k2⟩ := tags_exact (ops ++ pairs.map fun p => Op.merge false p.1 p.2)
    rw [hall] at k1
    cases Outcome.ok.inj k1
    rw [(k2 id).2.1, (tagged_reads h3 id).1, told_append]
    congr 1
    generalize Told.run {} ops = t
    induction pairs generalizing t with
    | nil => rfl
    | cons p ps ih =>
      have ih' : ∀ t : Told, (t.run (ps.map fun p => Op.merge false p.1 p.2)).nodes id = t.nodes id := by
        clear * -
        induction ps with
        | nil => intro t; rfl
        | cons q ps ih =>
          intro t
          show ((t.step (.merge false q.1 q.2)).run _).nodes id = _
          rw [ih, (files_step_merge t false q.1 q.2).2]
      show ((t.step (.merge false p.1 p.2)).run _).nodes id = _
      rw [ih', (files_step_merge t false p.1 p.2).2]
  · have hids : ∀ (ps : List (Nat × Nat)) (t : Told), (∀ x ∈ t.roads, ∃ w, Elem.way w ∈ es ∧ Osm.used f w = true ∧ w.id = x.id) →
        ∀ x ∈ (t.run (ps.map fun p => Op.merge false p.1 p.2)).roads, ∃ w, Elem.way w ∈ es ∧ Osm.used f w = true ∧ w.id = x.id := by
      intro ps
      induction ps with
      | nil => intro t ht; exact ht
      | cons p ps ih =>
        intro t ht
        refine ih (t.step (.merge false p.1 p.2)) ?_
        intro x hx
        simp only [Told.step] at hx
        split at hx
        · next r1 s1 hr1 hs1 =>
          split at hx
          · rcases mem_rest hx with hx | hx
            · exact ht x hx
            · rw [hx]
              exact ht r1 (List.mem_of_getElem? hr1)
          · exact ht x hx
        · exact ht x hx
    rw [hfit.roads]
    refine hids pairs _ ?_
    intro x hx
    rw [h3.roads] at hx
    obtain ⟨j, hj, rfl⟩ := List.mem_map.1 hx
    obtain ⟨e, he, rfl⟩ := List.mem_map.1 hj
    obtain ⟨b', w, a', e1, e2, e3, _⟩ := h3.placed e he
    exact ⟨w, by rw [e1]; simp, e2, e3⟩

/-! ### A file, and two files of different age -/

/-- A node that comes twice, one without tags, one that no road uses; a road with a name and one without a known node. -/
def sample : List (Elem Nat) :=
  [.node ⟨9, true, 90⟩ [("highway", "crossing")], .node ⟨4, true, 40⟩ [], .node ⟨9, true, 91⟩ [("highway", "stop")],
    .node ⟨5, true, 50⟩ [("barrier", "gate")], .node ⟨6, false, 60⟩ [("name", "A")],
    .way ⟨100, true, [4, 9, 6, 7], [("highway", "primary"), ("name", "A")]⟩, .way ⟨101, true, [6, 7], [("highway", "primary")]⟩,
    .way ⟨102, true, [4, 5], [("building", "yes")]⟩]

set_option synthInstance.maxSize 2048 in
set_option synthInstance.maxHeartbeats 400000 in
example : (run Osm.defaults {} sample).map (fun r => (r.osm.verts, r.osm.edges.map Osm.Edge.way, r.tags.graph.read .nodes 9,
    r.tags.graph.read .nodes 4, r.tags.graph.read .nodes 5, r.tags.graph.read .edges 100, r.tags.graph.read .edges 101)) =
    .ok ([(4, 40), (9, 90)], [100, 100], .ok [("highway", "crossing")], .ok [], .ok [], .ok [("highway", "primary"), ("name", "A")], .ok []) := by
  decide +kernel

example : NoEmpty Osm.defaults sample ∧ SameTags Osm.defaults sample := by
  have h1 : NoEmpty Osm.defaults sample := by
    intro w hw _
    simp only [sample, List.mem_cons, List.not_mem_nil, Elem.way.injEq, reduceCtorEq, false_or, or_false] at hw
    rcases hw with rfl | rfl | rfl <;> simp
  refine ⟨h1, ?_⟩
  intro w w' hw hw' _ _ he
  simp only [sample, List.mem_cons, List.not_mem_nil, Elem.way.injEq, reduceCtorEq, false_or, or_false] at hw hw'
  rcases hw with rfl | rfl | rfl <;> rcases hw' with rfl | rfl | rfl <;> simp_all

set_option synthInstance.maxSize 2048 in
set_option synthInstance.maxHeartbeats 400000 in
/-- Simplified and compressed: one edge per direction is left of three, with the tags. -/
example : ((run Osm.defaults ({} : Reader Nat) [.node ⟨1, true, 10⟩ [], .node ⟨2, true, 20⟩ [("a", "b")], .node ⟨3, true, 30⟩ [],
    .way ⟨7, true, [1, 2, 3], [("oneway", "yes"), ("highway", "primary")]⟩]).bind fun r => (simplify false r.tags [(0, 1)]).bind fun g =>
      (compress g.graph [(.nodes, 1), (.edges, 7)]).map fun b => (g.roads, b.read .edges 7, b.read .nodes 2)) =
    .ok ([⟨7, [7, 7]⟩], .ok [("oneway", "yes"), ("highway", "primary")], .ok []) := by decide +kernel

/-- Two files of different age: the road was given a speed limit in between.  Its edges come twice (C40), all without the limit. -/
theorem version_fails : ¬ ∀ (es : List (Elem Nat)), NoEmpty Osm.defaults es → ∀ r, run Osm.defaults {} es = .ok r →
    ∀ w, .way w ∈ es → Osm.used Osm.defaults w = true → Linked es w.refs → r.tags.graph.read .edges w.id = .ok w.tags := by
  intro h
  have hk : ∀ i, i = 1 ∨ i = 2 → Known [Elem.node ⟨1, true, 10⟩ [], .node ⟨2, true, 20⟩ [],
      .way ⟨7, true, [1, 2], [("highway", "primary")]⟩, .way ⟨7, true, [1, 2], [("highway", "primary"), ("maxspeed", "30")]⟩] i := by
    rintro i (rfl | rfl)
    · exact ⟨⟨1, true, 10⟩, [], by simp, rfl, rfl⟩
    · exact ⟨⟨2, true, 20⟩, [], by simp, rfl, rfl⟩
  have h2 : (run Osm.defaults {} [Elem.node ⟨1, true, 10⟩ [], .node ⟨2, true, 20⟩ [],
    .way ⟨7, true, [1, 2], [("highway", "primary")]⟩, .way ⟨7, true, [1, 2], [("highway", "primary"), ("maxspeed", "30")]⟩]).map
      (fun r => r.tags.graph.read .edges 7) = .ok (.ok [("highway", "primary")]) := by decide +kernel
  cases hr : run Osm.defaults {} [Elem.node ⟨1, true, 10⟩ [], .node ⟨2, true, 20⟩ [],
      .way ⟨7, true, [1, 2], [("highway", "primary")]⟩, .way ⟨7, true, [1, 2], [("highway", "primary"), ("maxspeed", "30")]⟩] with
  | ok r =>
    have h1 := h _ (by
      intro w hw _
      simp only [List.mem_cons, List.not_mem_nil, Elem.way.injEq, reduceCtorEq, false_or, or_false] at hw
      rcases hw with rfl | rfl <;> simp) r hr ⟨7, true, [1, 2], [("highway", "primary"), ("maxspeed", "30")]⟩ (by simp) (by decide)
      ⟨[], 1, 2, [], rfl, hk 1 (.inl rfl), hk 2 (.inr rfl)⟩
    rw [hr, Outcome.map_ok] at h2
    rw [Outcome.ok.inj h2] at h1
    simp at h1
  | throws => rw [hr] at h2; simp at h2
  | ub => rw [hr] at h2; simp at h2

end MM.OsmTags
