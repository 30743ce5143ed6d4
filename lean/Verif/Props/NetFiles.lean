import Verif.Model.NetFiles
import Mathlib.Data.List.Basic
import Mathlib.Data.List.Nodup

/-!
# C44: networks in several groups of files; C59: edges run between their vertices
-/

set_option autoImplicit false
set_option linter.unusedSectionVars false

namespace MM.NetFiles

variable {P : Type}

/-! ### Maps -/

theorem emplace_lookup {α : Type} (m : List (Nat × α)) (k : Nat) (v : α) (k' : Nat) :
    (emplace m k v).lookup k' = (m.lookup k').or (if k' = k then some v else none) := by
  unfold emplace
  cases hk : m.lookup k with
  | some i =>
    simp only [Option.isSome_some, if_true]
    by_cases he : k' = k
    · subst he; simp [hk]
    · simp [he]
  | none =>
    rw [if_neg (by simp), List.lookup_append]
    congr 1
    by_cases h : k' = k
    · simp [h]
    · have : (k' == k) = false := by simpa using h
      simp [h, List.lookup_cons, this]

/-- Position of the first node with the identifier. -/
def position (nodes : List (Nat × P)) (id : Nat) : Nat := nodes.findIdx (fun x => decide (x.1 = id))

theorem position_spec {nodes : List (Nat × P)} {id : Nat} (h : id ∈ nodes.map Prod.fst) : ∃ p, nodes[position nodes id]? = some (id, p) := by
  obtain ⟨x, hx, hid⟩ := List.mem_map.1 h
  have hlt : position nodes id < nodes.length := by
    unfold position
    rw [List.findIdx_lt_length]
    exact ⟨x, hx, by simpa using hid⟩
  have := List.findIdx_getElem (w := hlt)
  simp only [decide_eq_true_eq] at this
  refine ⟨nodes[position nodes id].2, ?_⟩
  rw [List.getElem?_eq_getElem hlt]
  congr 1
  exact Prod.ext this rfl

theorem readNodes_spec (proj : P → P) (nodes : List (Nat × P)) : ∀ (n : Net P) (m : List (Nat × Nat)),
    (readNodes proj n m nodes).1 = ⟨n.verts ++ nodes.map (fun x => ⟨x.1, proj x.2⟩), n.edges⟩ ∧
    ∀ k, (readNodes proj n m nodes).2.lookup k =
      (m.lookup k).or (if k ∈ nodes.map Prod.fst then some (n.verts.length + position nodes k) else none) := by
  induction nodes with
  | nil => intro n m; simp [readNodes]
  | cons x nodes ih =>
    intro n m
    obtain ⟨id, p⟩ := x
    rw [readNodes]
    obtain ⟨h1, h2⟩ := ih (addVert proj n id p) (emplace m id n.verts.length)
    refine ⟨by rw [h1]; simp [addVert], fun k => ?_⟩
    rw [h2, emplace_lookup]
    cases m.lookup k with
    | some i => simp
    | none =>
      by_cases hk : k = id
      · subst hk
        simp [position, List.findIdx_cons]
      · have : decide (id = k) = false := by simpa using Ne.symm hk
        simp only [hk, if_false, Option.none_or, List.map_cons, List.mem_cons, false_or, addVert, List.length_append, List.length_singleton,
          position, List.findIdx_cons, this, cond_false]
        split
        · congr 1
          omega
        · rfl

/-! ### Several groups -/

/-- The vertices of all groups. -/
def allVerts (proj : P → P) (nodes : List (List (Nat × P))) : List (Vert P) := nodes.flatMap (fun g => g.map (fun x => ⟨x.1, proj x.2⟩))

/-- The point of a node of the group. -/
def pointOf (proj : P → P) (nodes : List (Nat × P)) (id : Nat) : List P := (nodes[position nodes id]?.map (fun x => proj x.2)).toList

/-- An edge between two nodes of a group of which the vertices start at `base`. -/
def ownEdge (proj : P → P) (base : Nat) (nodes : List (Nat × P)) (e : Nat × Nat × Nat) : Edge P :=
  ⟨base + position nodes e.2.1, base + position nodes e.2.2, e.1, pointOf proj nodes e.2.1 ++ pointOf proj nodes e.2.2⟩

/-- The edges wanted: each joins the nodes its own group defines. -/
def melWanted (proj : P → P) : Nat → List (MelGroup P) → List (Edge P)
  | _, [] => []
  | base, g :: gs => g.edges.map (ownEdge proj base g.nodes) ++ melWanted proj (base + g.nodes.length) gs

/-- The ends of all edges are nodes of the group. -/
def MelGroup.Closed (g : MelGroup P) : Prop := ∀ e ∈ g.edges, e.2.1 ∈ g.nodes.map Prod.fst ∧ e.2.2 ∈ g.nodes.map Prod.fst

theorem melEdges_spec (proj : P → P) (m : List (Nat × Nat)) (base : Nat) (nodes : List (Nat × P)) (pre : List (Vert P)) (hpre : pre.length = base)
    (es : List (Nat × Nat × Nat)) : ∀ (ed : List (Edge P)),
    (∀ k, k ∈ nodes.map Prod.fst → m.lookup k = some (base + position nodes k)) →
    (∀ e ∈ es, e.2.1 ∈ nodes.map Prod.fst ∧ e.2.2 ∈ nodes.map Prod.fst) →
    melEdges m ⟨pre ++ nodes.map (fun x => ⟨x.1, proj x.2⟩), ed⟩ es =
      .ok ⟨pre ++ nodes.map (fun x => ⟨x.1, proj x.2⟩), ed ++ es.map (ownEdge proj base nodes)⟩ := by
  induction es with
  | nil => intro ed _ _; simp [melEdges]
  | cons e es ih =>
    intro ed hm hc
    obtain ⟨id, f, t⟩ := e
    obtain ⟨hf, ht⟩ := hc (id, f, t) (List.mem_cons_self ..)
    simp only at hf ht
    have hget : ∀ k, k ∈ nodes.map Prod.fst → ∃ p, (pre ++ nodes.map (fun x => (⟨x.1, proj x.2⟩ : Vert P)))[base + position nodes k]? =
        some ⟨k, proj p⟩ ∧ pointOf proj nodes k = [proj p] := by
      intro k hk
      obtain ⟨p, hp⟩ := position_spec hk
      refine ⟨p, ?_, by simp [pointOf, hp]⟩
      rw [← hpre, List.getElem?_append_right (by omega), Nat.add_sub_cancel_left, List.getElem?_map, hp]
      rfl
    obtain ⟨p, hp, hp'⟩ := hget f hf
    obtain ⟨q, hq, hq'⟩ := hget t ht
    rw [melEdges, hm f hf, hm t ht]
    simp only [joined, hp, hq, Outcome.bind_ok, addEdge]
    rw [ih _ hm (fun e he => hc e (List.mem_cons_of_mem _ he))]
    simp [ownEdge, hp', hq']

/-- **C44**, Melbourne: every edge of a group joins the nodes of its own group, if no identifier of a node occurs in two groups and each
group defines the ends of its edges.  Missing: identifiers used in several groups (`melbourne_fails`). -/
theorem melbourne_partial (proj : P → P) (gs : List (MelGroup P)) (hclosed : ∀ g ∈ gs, g.Closed)
    (hdisjoint : gs.Pairwise (fun g h => ∀ k ∈ h.nodes.map Prod.fst, k ∉ g.nodes.map Prod.fst)) :
    melRead proj ⟨[], []⟩ [] gs = .ok ⟨allVerts proj (gs.map MelGroup.nodes), melWanted proj 0 gs⟩ := by
  have key : ∀ (gs : List (MelGroup P)) (n : Net P) (m : List (Nat × Nat)), (∀ g ∈ gs, g.Closed) →
      gs.Pairwise (fun g h => ∀ k ∈ h.nodes.map Prod.fst, k ∉ g.nodes.map Prod.fst) →
      (∀ g ∈ gs, ∀ k ∈ g.nodes.map Prod.fst, m.lookup k = none) →
      melRead proj n m gs = .ok ⟨n.verts ++ allVerts proj (gs.map MelGroup.nodes), n.edges ++ melWanted proj n.verts.length gs⟩ := by
    intro gs
    induction gs with
    | nil => intro n m _ _ _; simp [melRead, allVerts, melWanted]
    | cons g gs ih =>
      intro n m hc hd hm
      obtain ⟨hd1, hd2⟩ := List.pairwise_cons.1 hd
      obtain ⟨h1, h2⟩ := readNodes_spec proj g.nodes n m
      have hlook : ∀ k, k ∈ g.nodes.map Prod.fst → (readNodes proj n m g.nodes).2.lookup k = some (n.verts.length + position g.nodes k) := by
        intro k hk
        rw [h2, hm g (List.mem_cons_self ..) k hk, if_pos hk]
        rfl
      rw [melRead, h1, melEdges_spec proj _ n.verts.length g.nodes n.verts rfl g.edges n.edges hlook (hc g (List.mem_cons_self ..)), Outcome.bind_ok]
      rw [ih _ _ (fun g' hg' => hc g' (List.mem_cons_of_mem _ hg')) hd2]
      · simp [allVerts, melWanted]
      · intro g' hg' k hk
        rw [h2, hm g' (List.mem_cons_of_mem _ hg') k hk, if_neg (hd1 g' hg' k hk)]
        rfl
  have := key gs ⟨[], []⟩ [] hclosed hdisjoint (by simp)
  simpa using this

/-- **C44 fails**, Melbourne: the second group defines nodes 1 and 2 at 30 and 40, its edge joins those of the first group. -/
theorem melbourne_fails : ∃ (gs : List (MelGroup Nat)) (n : Net Nat), (∀ g ∈ gs, g.Closed) ∧ melRead id ⟨[], []⟩ [] gs = .ok n ∧
    n.edges ≠ melWanted id 0 gs ∧ n.edges = [⟨0, 1, 7, [10, 20]⟩, ⟨0, 1, 7, [10, 20]⟩] := by
  refine ⟨[⟨[(1, 10), (2, 20)], [(7, 1, 2)]⟩, ⟨[(1, 30), (2, 40)], [(7, 1, 2)]⟩],
    ⟨[⟨1, 10⟩, ⟨2, 20⟩, ⟨1, 30⟩, ⟨2, 40⟩], [⟨0, 1, 7, [10, 20]⟩, ⟨0, 1, 7, [10, 20]⟩]⟩, ?_, by decide, by decide, rfl⟩
  intro g hg
  simp only [List.mem_cons, List.not_mem_nil, or_false] at hg
  unfold MelGroup.Closed
  rcases hg with rfl | rfl <;> decide

example : ∃ gs : List (MelGroup Nat), (∀ g ∈ gs, g.Closed) ∧ gs.Pairwise (fun g h => ∀ k ∈ h.nodes.map Prod.fst, k ∉ g.nodes.map Prod.fst) ∧
    melWanted id 0 gs = [⟨0, 1, 7, [10, 20]⟩, ⟨3, 2, 7, [40, 30]⟩] := by
  refine ⟨[⟨[(1, 10), (2, 20)], [(7, 1, 2)]⟩, ⟨[(3, 30), (4, 40)], [(7, 4, 3)]⟩], ?_, by decide, by decide⟩
  intro g hg
  simp only [List.mem_cons, List.not_mem_nil, or_false] at hg
  unfold MelGroup.Closed
  rcases hg with rfl | rfl <;> decide

/-! ### Arcs and nodes -/

/-- The edge wanted: between the points at the two positions of the file. -/
def arcEdge (proj : P → P) (base : Nat) (nodes : List P) (e : (Nat × Nat) × Nat) : Edge P :=
  ⟨base + e.1.1, base + e.1.2, e.2, (nodes[e.1.1]?.map proj).toList ++ (nodes[e.1.2]?.map proj).toList⟩

/-- The edges wanted; they are numbered in each file. -/
def arcWanted (proj : P → P) : Nat → List (ArcGroup P) → List (Edge P)
  | _, [] => []
  | base, g :: gs => g.arcs.zipIdx.map (arcEdge proj base g.nodes) ++ arcWanted proj (base + g.nodes.length) gs

/-- The vertices wanted, numbered in each file. -/
def arcVerts (proj : P → P) (gs : List (ArcGroup P)) : List (Vert P) := gs.flatMap (fun g => g.nodes.zipIdx.map (fun x => ⟨x.2, proj x.1⟩))

/-- The positions are in the file. -/
def ArcGroup.Closed (g : ArcGroup P) : Prop := ∀ e ∈ g.arcs, e.1 < g.nodes.length ∧ e.2 < g.nodes.length

theorem arcNodes_spec (proj : P → P) (ps : List P) : ∀ (n : Net P) (m : List Nat) (id : Nat),
    arcNodes proj n m id ps = (⟨n.verts ++ (ps.zipIdx id).map (fun x => ⟨x.2, proj x.1⟩), n.edges⟩,
      m ++ List.range' n.verts.length ps.length) := by
  induction ps with
  | nil => intro n m id; simp [arcNodes]
  | cons p ps ih =>
    intro n m id
    rw [arcNodes, ih]
    simp [addVert, List.zipIdx_cons, List.range'_succ]

theorem arcEdges_spec (proj : P → P) (nodes : List P) (pre : List (Vert P)) (as : List (Nat × Nat)) : ∀ (ed : List (Edge P)) (id : Nat),
    ((∀ e ∈ as, e.1 < nodes.length ∧ e.2 < nodes.length) →
      arcEdges (List.range' pre.length nodes.length) ⟨pre ++ nodes.zipIdx.map (fun x => ⟨x.2, proj x.1⟩), ed⟩ id as =
        .ok ⟨pre ++ nodes.zipIdx.map (fun x => ⟨x.2, proj x.1⟩), ed ++ (as.zipIdx id).map (arcEdge proj pre.length nodes)⟩) ∧
    ((¬ ∀ e ∈ as, e.1 < nodes.length ∧ e.2 < nodes.length) →
      arcEdges (List.range' pre.length nodes.length) ⟨pre ++ nodes.zipIdx.map (fun x => ⟨x.2, proj x.1⟩), ed⟩ id as = .throws) := by
  induction as with
  | nil => intro ed id; simp [arcEdges]
  | cons e as ih =>
    intro ed id
    obtain ⟨a, b⟩ := e
    by_cases hab : a < nodes.length ∧ b < nodes.length
    · obtain ⟨ha, hb⟩ := hab
      have hget : ∀ k (hk : k < nodes.length), (pre ++ nodes.zipIdx.map (fun x => (⟨x.2, proj x.1⟩ : Vert P)))[pre.length + k]? =
          some ⟨k, proj nodes[k]⟩ := by
        intro k hk
        rw [List.getElem?_append_right (by omega), Nat.add_sub_cancel_left, List.getElem?_map]
        simp [hk]
      have hstep : arcEdges (List.range' pre.length nodes.length) ⟨pre ++ nodes.zipIdx.map (fun x => ⟨x.2, proj x.1⟩), ed⟩ id ((a, b) :: as) =
          arcEdges (List.range' pre.length nodes.length) ⟨pre ++ nodes.zipIdx.map (fun x => ⟨x.2, proj x.1⟩),
            ed ++ [arcEdge proj pre.length nodes ((a, b), id)]⟩ (id + 1) as := by
        rw [arcEdges]
        simp only [List.getElem?_range' ha, List.getElem?_range' hb, Nat.one_mul, joined, hget a ha, hget b hb, Outcome.bind_ok, addEdge]
        simp [arcEdge, List.getElem?_eq_getElem ha, List.getElem?_eq_getElem hb]
      rw [hstep]
      obtain ⟨i1, i2⟩ := ih (ed ++ [arcEdge proj pre.length nodes ((a, b), id)]) (id + 1)
      constructor
      · intro h
        rw [i1 (fun e he => h e (List.mem_cons_of_mem _ he))]
        simp [List.zipIdx_cons]
      · intro h
        apply i2
        intro hc
        apply h
        intro e he
        rcases List.mem_cons.1 he with rfl | he
        · exact ⟨ha, hb⟩
        · exact hc e he
    · constructor
      · intro h
        exact absurd (h (a, b) (List.mem_cons_self ..)) hab
      · intro _
        rw [arcEdges]
        by_cases ha : a < nodes.length
        · have hb : ¬ b < nodes.length := fun hb => hab ⟨ha, hb⟩
          have : (List.range' pre.length nodes.length)[b]? = none := List.getElem?_eq_none (by simp; omega)
          rw [this]
          cases (List.range' pre.length nodes.length)[a]? <;> rfl
        · have : (List.range' pre.length nodes.length)[a]? = none := List.getElem?_eq_none (by simp; omega)
          rw [this]

/-- **C44**, arcs and nodes: for every list of groups, the import succeeds exactly if all positions are in their own file; then every edge of
a group joins the nodes of its own group. -/
theorem arc_groups (proj : P → P) (gs : List (ArcGroup P)) :
    ((∀ g ∈ gs, g.Closed) → arcRead proj ⟨[], []⟩ gs = .ok ⟨arcVerts proj gs, arcWanted proj 0 gs⟩) ∧
    ((¬ ∀ g ∈ gs, g.Closed) → arcRead proj ⟨[], []⟩ gs = .throws) := by
  have key : ∀ (gs : List (ArcGroup P)) (n : Net P),
      ((∀ g ∈ gs, g.Closed) → arcRead proj n gs = .ok ⟨n.verts ++ arcVerts proj gs, n.edges ++ arcWanted proj n.verts.length gs⟩) ∧
      ((¬ ∀ g ∈ gs, g.Closed) → arcRead proj n gs = .throws) := by
    intro gs
    induction gs with
    | nil => intro n; simp [arcRead, arcVerts, arcWanted]
    | cons g gs ih =>
      intro n
      have hn := arcNodes_spec proj g.nodes n [] 0
      obtain ⟨e1, e2⟩ := arcEdges_spec proj g.nodes n.verts g.arcs n.edges 0
      rw [arcRead, hn]
      simp only [List.nil_append]
      by_cases hc : g.Closed
      · rw [e1 hc, Outcome.bind_ok]
        obtain ⟨i1, i2⟩ := ih ⟨n.verts ++ g.nodes.zipIdx.map (fun x => ⟨x.2, proj x.1⟩),
          n.edges ++ (g.arcs.zipIdx 0).map (arcEdge proj n.verts.length g.nodes)⟩
        constructor
        · intro h
          rw [i1 (fun g' hg' => h g' (List.mem_cons_of_mem _ hg'))]
          simp [arcVerts, arcWanted]
        · intro h
          apply i2
          intro hc'
          apply h
          intro g' hg'
          rcases List.mem_cons.1 hg' with rfl | hg'
          · exact hc
          · exact hc' g' hg'
      · constructor
        · intro h
          exact absurd (h g (List.mem_cons_self ..)) hc
        · intro _
          rw [e2 hc]
          rfl
  have := key gs ⟨[], []⟩
  simpa using this

example : arcRead id ⟨[], []⟩ [⟨[10, 20], [(0, 1)]⟩, ⟨[30, 40], [(1, 0)]⟩] =
    .ok ⟨[⟨0, 10⟩, ⟨1, 20⟩, ⟨0, 30⟩, ⟨1, 40⟩], [⟨0, 1, 0, [10, 20]⟩, ⟨3, 2, 0, [40, 30]⟩]⟩ ∧
    arcRead id ⟨[], []⟩ [⟨[10, 20], [(0, 2)]⟩, ⟨[30, 40], []⟩] = .throws := by decide

/-! ### ACM GIS Cup -/

/-- The ends the group gives for an edge. -/
def endsOf (es : List (Nat × Nat × Nat)) (id : Nat) : Nat × Nat := ((es.find? (fun e => decide (e.1 = id))).map Prod.snd).getD (0, 0)

/-- The edge wanted for a line. -/
def cupEdge (base : Nat) (g : CupGroup P) (l : Nat × List P) : Edge P :=
  ⟨base + position g.nodes (endsOf g.edges l.1).1, base + position g.nodes (endsOf g.edges l.1).2, l.1, l.2⟩

/-- The edges wanted: each joins the nodes its own group defines for the ends its own group defines. -/
def cupWanted : Nat → List (CupGroup P) → List (Edge P)
  | _, [] => []
  | base, g :: gs => g.lines.map (cupEdge base g) ++ cupWanted (base + g.nodes.length) gs

/-- The group defines the edges of its lines and the nodes of its edges. -/
def CupGroup.Closed (g : CupGroup P) : Prop :=
  (∀ l ∈ g.lines, l.1 ∈ g.edges.map Prod.fst) ∧ ∀ e ∈ g.edges, e.2.1 ∈ g.nodes.map Prod.fst ∧ e.2.2 ∈ g.nodes.map Prod.fst

theorem cupMap_lookup (es : List (Nat × Nat × Nat)) : ∀ (m : List (Nat × (Nat × Nat))) (k : Nat),
    (cupMap m es).lookup k = (m.lookup k).or ((es.find? (fun e => decide (e.1 = k))).map Prod.snd) := by
  induction es with
  | nil => intro m k; simp [cupMap]
  | cons e es ih =>
    intro m k
    have : cupMap m (e :: es) = cupMap (emplace m e.1 e.2) es := rfl
    rw [this, ih, emplace_lookup, List.find?_cons]
    cases m.lookup k with
    | some i => simp
    | none =>
      by_cases hk : e.1 = k
      · simp [hk]
      · simp [hk, Ne.symm hk]

theorem cupEdges_spec (vm : List (Nat × Nat)) (em : List (Nat × (Nat × Nat))) (base : Nat) (g : CupGroup P) (vs : List (Vert P))
    (ls : List (Nat × List P)) : ∀ (ed : List (Edge P)),
    (∀ k, k ∈ g.nodes.map Prod.fst → vm.lookup k = some (base + position g.nodes k)) →
    (∀ l ∈ ls, em.lookup l.1 = some (endsOf g.edges l.1) ∧ (endsOf g.edges l.1).1 ∈ g.nodes.map Prod.fst ∧
      (endsOf g.edges l.1).2 ∈ g.nodes.map Prod.fst) →
    cupEdges vm em ⟨vs, ed⟩ ls = .ok ⟨vs, ed ++ ls.map (cupEdge base g)⟩ := by
  induction ls with
  | nil => intro ed _ _; simp [cupEdges]
  | cons l ls ih =>
    intro ed hv hl
    obtain ⟨id, line⟩ := l
    obtain ⟨h1, h2, h3⟩ := hl (id, line) (List.mem_cons_self ..)
    simp only at h1 h2 h3
    rw [cupEdges, h1]
    simp only [hv _ h2, hv _ h3, addEdge]
    rw [ih _ hv (fun l hl' => hl l (List.mem_cons_of_mem _ hl'))]
    simp [cupEdge]

/-- **C44**, GIS Cup: every edge of a group joins the nodes of its own group, if no identifier of a node or of an edge occurs in two groups
and each group defines what it uses.  Missing: identifiers used in several groups (`giscup_fails`). -/
theorem giscup_partial (proj : P → P) (gs : List (CupGroup P)) (hclosed : ∀ g ∈ gs, g.Closed)
    (hdisjoint : gs.Pairwise (fun g h => (∀ k ∈ h.nodes.map Prod.fst, k ∉ g.nodes.map Prod.fst) ∧
      ∀ k ∈ h.edges.map Prod.fst, k ∉ g.edges.map Prod.fst)) :
    cupRead proj ⟨[], []⟩ [] [] gs = .ok ⟨allVerts proj (gs.map CupGroup.nodes), cupWanted 0 gs⟩ := by
  have key : ∀ (gs : List (CupGroup P)) (n : Net P) (vm : List (Nat × Nat)) (em : List (Nat × (Nat × Nat))), (∀ g ∈ gs, g.Closed) →
      gs.Pairwise (fun g h => (∀ k ∈ h.nodes.map Prod.fst, k ∉ g.nodes.map Prod.fst) ∧ ∀ k ∈ h.edges.map Prod.fst, k ∉ g.edges.map Prod.fst) →
      (∀ g ∈ gs, (∀ k ∈ g.nodes.map Prod.fst, vm.lookup k = none) ∧ ∀ k ∈ g.edges.map Prod.fst, em.lookup k = none) →
      cupRead proj n vm em gs = .ok ⟨n.verts ++ allVerts proj (gs.map CupGroup.nodes), n.edges ++ cupWanted n.verts.length gs⟩ := by
    intro gs
    induction gs with
    | nil => intro n vm em _ _ _; simp [cupRead, allVerts, cupWanted]
    | cons g gs ih =>
      intro n vm em hc hd hm
      obtain ⟨hd1, hd2⟩ := List.pairwise_cons.1 hd
      obtain ⟨h1, h2⟩ := readNodes_spec proj g.nodes n vm
      have hlook : ∀ k, k ∈ g.nodes.map Prod.fst → (readNodes proj n vm g.nodes).2.lookup k = some (n.verts.length + position g.nodes k) := by
        intro k hk
        rw [h2, (hm g (List.mem_cons_self ..)).1 k hk, if_pos hk]
        rfl
      have hends : ∀ l ∈ g.lines, (cupMap em g.edges).lookup l.1 = some (endsOf g.edges l.1) ∧ (endsOf g.edges l.1).1 ∈ g.nodes.map Prod.fst ∧
          (endsOf g.edges l.1).2 ∈ g.nodes.map Prod.fst := by
        intro l hl
        obtain ⟨c1, c2⟩ := hc g (List.mem_cons_self ..)
        have hin := c1 l hl
        rw [cupMap_lookup, (hm g (List.mem_cons_self ..)).2 _ hin, Option.none_or]
        unfold endsOf
        obtain ⟨e, he, hid⟩ := List.mem_map.1 hin
        cases hf : g.edges.find? (fun e => decide (e.1 = l.1)) with
        | none => exact absurd (List.find?_eq_none.1 hf e he) (by simpa using hid)
        | some e' => exact ⟨rfl, c2 e' (List.mem_of_find?_eq_some hf)⟩
      rw [cupRead, h1, cupEdges_spec _ _ n.verts.length g _ g.lines n.edges hlook hends, Outcome.bind_ok]
      rw [ih _ _ _ (fun g' hg' => hc g' (List.mem_cons_of_mem _ hg')) hd2]
      · simp [allVerts, cupWanted]
      · intro g' hg'
        obtain ⟨m1, m2⟩ := hm g' (List.mem_cons_of_mem _ hg')
        constructor
        · intro k hk
          rw [h2, m1 k hk, if_neg ((hd1 g' hg').1 k hk)]
          rfl
        · intro k hk
          rw [cupMap_lookup, m2 k hk, Option.none_or, Option.map_eq_none_iff, List.find?_eq_none]
          intro e he hek
          simp only [decide_eq_true_eq] at hek
          exact (hd1 g' hg').2 k hk (List.mem_map.2 ⟨e, he, hek⟩)
  have := key gs ⟨[], []⟩ [] [] hclosed hdisjoint (by simp)
  simpa using this

/-- **C44 fails**, GIS Cup. -/
theorem giscup_fails : ∃ (gs : List (CupGroup Nat)) (n : Net Nat), (∀ g ∈ gs, g.Closed) ∧ cupRead id ⟨[], []⟩ [] [] gs = .ok n ∧
    n.edges ≠ cupWanted 0 gs ∧ n.edges = [⟨0, 1, 7, [10, 20]⟩, ⟨0, 1, 7, [30, 40]⟩] := by
  refine ⟨[⟨[(1, 10), (2, 20)], [(7, 1, 2)], [(7, [10, 20])]⟩, ⟨[(1, 30), (2, 40)], [(7, 1, 2)], [(7, [30, 40])]⟩],
    ⟨[⟨1, 10⟩, ⟨2, 20⟩, ⟨1, 30⟩, ⟨2, 40⟩], [⟨0, 1, 7, [10, 20]⟩, ⟨0, 1, 7, [30, 40]⟩]⟩, ?_, by decide, by decide, rfl⟩
  intro g hg
  simp only [List.mem_cons, List.not_mem_nil, or_false] at hg
  unfold CupGroup.Closed
  rcases hg with rfl | rfl <;> decide

example : ∃ gs : List (CupGroup Nat), (∀ g ∈ gs, g.Closed) ∧ gs.Pairwise (fun g h => (∀ k ∈ h.nodes.map Prod.fst, k ∉ g.nodes.map Prod.fst) ∧
      ∀ k ∈ h.edges.map Prod.fst, k ∉ g.edges.map Prod.fst) ∧
    cupWanted 0 gs = [⟨0, 1, 7, [10, 15, 20]⟩, ⟨3, 2, 8, [40, 30]⟩] := by
  refine ⟨[⟨[(1, 10), (2, 20)], [(7, 1, 2)], [(7, [10, 15, 20])]⟩, ⟨[(3, 30), (4, 40)], [(8, 4, 3)], [(8, [40, 30])]⟩], ?_, by decide, by decide⟩
  intro g hg
  simp only [List.mem_cons, List.not_mem_nil, or_false] at hg
  unfold CupGroup.Closed
  rcases hg with rfl | rfl <;> decide

/-! ### Seattle: one network in several files -/

/-- The map and the vertices belong together: each identifier has one vertex. -/
structure SeaInv (n : Net P) (m : List (Nat × Nat)) : Prop where
  nodup : (n.verts.map Vert.id).Nodup
  map : ∀ k i, m.lookup k = some i ↔ ∃ v, n.verts[i]? = some v ∧ v.id = k

theorem seaVertex_spec (proj : P → P) {n : Net P} {m : List (Nat × Nat)} (h : SeaInv n m) (id : Nat) (p : Option P) (hp : p ≠ none) :
    ∃ i n' m', seaVertex proj n m id p = .ok (i, n', m') ∧ SeaInv n' m' ∧ n'.edges = n.edges ∧ (∃ vs, n'.verts = n.verts ++ vs) ∧
      (∃ v, n'.verts[i]? = some v ∧ v.id = id) ∧ (∀ v ∈ n'.verts, v ∈ n.verts ∨ v.id = id ∧ p.map proj = some v.point) := by
  unfold seaVertex
  cases hm : m.lookup id with
  | some i =>
    exact ⟨i, n, m, rfl, h, rfl, ⟨[], by simp⟩, (h.map id i).1 hm, fun v hv => Or.inl hv⟩
  | none =>
    cases p with
    | none => exact absurd rfl hp
    | some p =>
      have hnew : id ∉ n.verts.map Vert.id := by
        intro hin
        obtain ⟨v, hv, hid⟩ := List.mem_map.1 hin
        obtain ⟨i, hi, rfl⟩ := List.getElem_of_mem hv
        have := (h.map id i).2 ⟨_, List.getElem?_eq_getElem hi, hid⟩
        rw [hm] at this
        cases this
      refine ⟨n.verts.length, addVert proj n id p, emplace m id n.verts.length, rfl, ⟨?_, ?_⟩, rfl, ⟨_, rfl⟩, ?_, ?_⟩
      · simp only [addVert, List.map_append, List.nodup_append]
        refine ⟨h.nodup, by simp, ?_⟩
        intro a ha b hb
        simp only [List.map_cons, List.map_nil, List.mem_singleton] at hb
        subst hb
        rintro rfl
        exact hnew ha
      · intro k i
        rw [emplace_lookup]
        simp only [addVert]
        cases hk : m.lookup k with
        | some j =>
          simp only [Option.some_or, Option.some.injEq]
          obtain ⟨v, hv, hvk⟩ := (h.map k j).1 hk
          have hjlt := (List.getElem?_eq_some_iff.1 hv).1
          constructor
          · rintro rfl
            exact ⟨v, by rw [List.getElem?_append_left hjlt]; exact hv, hvk⟩
          · rintro ⟨w, hw, hwk⟩
            by_cases hi : i < n.verts.length
            · rw [List.getElem?_append_left hi] at hw
              have := (h.map k i).2 ⟨w, hw, hwk⟩
              rw [hk] at this
              exact Option.some.inj this
            · rw [List.getElem?_append_right (by omega)] at hw
              have hw' : w = ⟨id, proj p⟩ := by
                cases hd : i - n.verts.length with
                | zero => rw [hd] at hw; simpa using hw.symm
                | succ d => rw [hd] at hw; simp at hw
              subst hw'
              simp only at hwk
              subst hwk
              rw [hm] at hk
              cases hk
        | none =>
          rw [Option.none_or]
          constructor
          · intro hi
            split at hi
            · rename_i hke
              cases hi
              exact ⟨⟨id, proj p⟩, by simp, hke.symm⟩
            · cases hi
          · rintro ⟨w, hw, hwk⟩
            by_cases hi : i < n.verts.length
            · rw [List.getElem?_append_left hi] at hw
              have := (h.map k i).2 ⟨w, hw, hwk⟩
              rw [hk] at this
              cases this
            · rw [List.getElem?_append_right (by omega)] at hw
              cases hd : i - n.verts.length with
              | zero =>
                rw [hd] at hw
                simp only [List.getElem?_cons_zero, Option.some.injEq] at hw
                subst hw
                simp only at hwk
                rw [if_pos hwk.symm]
                congr 1
                omega
              | succ d => rw [hd] at hw; simp at hw
      · exact ⟨⟨id, proj p⟩, by simp [addVert], rfl⟩
      · intro v hv
        simp only [addVert, List.mem_append, List.mem_singleton] at hv
        rcases hv with hv | rfl
        · exact Or.inl hv
        · exact Or.inr ⟨rfl, rfl⟩

/-- The edge of the graph goes between the vertices with these identifiers. -/
def Joins (n : Net P) (e : Edge P) (f t : Nat) : Prop :=
  (∃ v, n.verts[e.src]? = some v ∧ v.id = f) ∧ ∃ w, n.verts[e.tgt]? = some w ∧ w.id = t

/-- What a row wants: ends, identifier, line; both directions for a two-way row. -/
def rowEdges (r : SeaRow P) : List (Nat × Nat × Nat × List P) :=
  (r.from_, r.to_, r.id, r.line) :: if r.twoWay then [(r.to_, r.from_, r.id, r.line.reverse)] else []

/-- An edge is as wanted. -/
def AsWanted (n : Net P) (e : Edge P) (x : Nat × Nat × Nat × List P) : Prop := Joins n e x.1 x.2.1 ∧ e.id = x.2.2.1 ∧ e.line = x.2.2.2

theorem AsWanted.mono {n n' : Net P} {e : Edge P} {x : Nat × Nat × Nat × List P} (h : AsWanted n e x) (vs : List (Vert P))
    (hv : n'.verts = n.verts ++ vs) : AsWanted n' e x := by
  obtain ⟨⟨⟨v, hv1, hv2⟩, ⟨w, hw1, hw2⟩⟩, h2⟩ := h
  have : ∀ (i : Nat) (v : Vert P), n.verts[i]? = some v → n'.verts[i]? = some v := by
    intro i v hi
    rw [hv, List.getElem?_append_left (List.getElem?_eq_some_iff.1 hi).1]
    exact hi
  exact ⟨⟨⟨v, this _ _ hv1, hv2⟩, ⟨w, this _ _ hw1, hw2⟩⟩, h2⟩

/-- A vertex is at the end of a line of a row where its identifier stands. -/
def FromRow (proj : P → P) (rs : List (SeaRow P)) (v : Vert P) : Prop :=
  ∃ r ∈ rs, (v.id = r.from_ ∧ r.line.head?.map proj = some v.point) ∨ (v.id = r.to_ ∧ r.line.getLast?.map proj = some v.point)

theorem seaRows_spec (proj : P → P) (rs : List (SeaRow P)) : ∀ (n : Net P) (m : List (Nat × Nat)) (done : List (Nat × Nat × Nat × List P)),
    SeaInv n m → List.Forall₂ (AsWanted n) n.edges done → (∀ r ∈ rs, r.line ≠ []) →
    ∃ n' m', seaRows proj n m rs = .ok (n', m') ∧ SeaInv n' m' ∧ List.Forall₂ (AsWanted n') n'.edges (done ++ rs.flatMap rowEdges) ∧
      ∀ v ∈ n'.verts, v ∈ n.verts ∨ FromRow proj rs v := by
  induction rs with
  | nil => intro n m done h hf _; exact ⟨n, m, rfl, h, by simpa using hf, fun v hv => Or.inl hv⟩
  | cons r rs ih =>
    intro n m done h hf hne
    have hr := hne r (List.mem_cons_self ..)
    obtain ⟨i, n1, m1, e1, inv1, ed1, ⟨vs1, vv1⟩, ⟨v1, g1, id1⟩, new1⟩ := seaVertex_spec proj h r.from_ r.line.head? (by simpa using hr)
    obtain ⟨j, n2, m2, e2, inv2, ed2, ⟨vs2, vv2⟩, ⟨v2, g2, id2⟩, new2⟩ := seaVertex_spec proj inv1 r.to_ r.line.getLast? (by simpa using hr)
    have g1' : n2.verts[i]? = some v1 := by
      rw [vv2, List.getElem?_append_left (List.getElem?_eq_some_iff.1 g1).1]
      exact g1
    have hverts : (seaEdges n2 r i j).verts = n2.verts := by
      unfold seaEdges
      split <;> rfl
    have hinv : SeaInv (seaEdges n2 r i j) m2 := ⟨by rw [hverts]; exact inv2.nodup, by rw [hverts]; exact inv2.map⟩
    have hold : List.Forall₂ (AsWanted (seaEdges n2 r i j)) n.edges done :=
      hf.imp (fun _ _ hw => hw.mono (vs1 ++ vs2) (by rw [hverts, vv2, vv1]; simp))
    have hedges : (seaEdges n2 r i j).edges = n.edges ++ (⟨i, j, r.id, r.line⟩ :: if r.twoWay then [⟨j, i, r.id, r.line.reverse⟩] else []) := by
      unfold seaEdges
      split <;> simp [addEdge, ed2, ed1]
    have hnew : List.Forall₂ (AsWanted (seaEdges n2 r i j)) (seaEdges n2 r i j).edges (done ++ rowEdges r) := by
      rw [hedges]
      refine List.rel_append hold ?_
      unfold rowEdges
      refine .cons ⟨⟨⟨v1, by rw [hverts]; exact g1', id1⟩, ⟨v2, by rw [hverts]; exact g2, id2⟩⟩, rfl, rfl⟩ ?_
      split
      · exact .cons ⟨⟨⟨v2, by rw [hverts]; exact g2, id2⟩, ⟨v1, by rw [hverts]; exact g1', id1⟩⟩, rfl, rfl⟩ .nil
      · exact .nil
    obtain ⟨n', m', he, hinv', hfin, hvs⟩ := ih _ _ _ hinv hnew (fun r' hr' => hne r' (List.mem_cons_of_mem _ hr'))
    refine ⟨n', m', ?_, hinv', by simpa using hfin, ?_⟩
    · rw [seaRows, e1, Outcome.bind_ok, e2, Outcome.bind_ok]
      exact he
    · intro v hv
      rcases hvs v hv with hv | ⟨r', hr', hh⟩
      · rw [hverts] at hv
        rcases new2 v hv with hv | hh
        · rcases new1 v hv with hv | hh
          · exact Or.inl hv
          · exact Or.inr ⟨r, List.mem_cons_self .., Or.inl hh⟩
        · exact Or.inr ⟨r, List.mem_cons_self .., Or.inr hh⟩
      · exact Or.inr ⟨r', List.mem_cons_of_mem _ hr', hh⟩

theorem seaRows_append (proj : P → P) : ∀ (rs rs' : List (SeaRow P)) (n : Net P) (m : List (Nat × Nat)),
    seaRows proj n m (rs ++ rs') = (seaRows proj n m rs).bind fun s => seaRows proj s.1 s.2 rs' := by
  intro rs
  induction rs with
  | nil => intro rs' n m; rfl
  | cons r rs ih =>
    intro rs' n m
    rw [List.cons_append, seaRows, seaRows]
    cases seaVertex proj n m r.from_ r.line.head? with
    | ok a =>
      simp only [Outcome.bind_ok]
      cases seaVertex proj a.2.1 a.2.2 r.to_ r.line.getLast? with
      | ok b => simp only [Outcome.bind_ok]; exact ih _ _ _
      | throws => rfl
      | ub => rfl
    | throws => rfl
    | ub => rfl

theorem seaRead_flatten (proj : P → P) (fs : List (List (SeaRow P))) : ∀ (n : Net P) (m : List (Nat × Nat)),
    seaRead proj n m fs = (seaRows proj n m fs.flatten).map Prod.fst := by
  induction fs with
  | nil => intro n m; rfl
  | cons f fs ih =>
    intro n m
    rw [List.flatten_cons, seaRows_append, seaRead]
    cases seaRows proj n m f with
    | ok s => simp only [Outcome.bind_ok]; exact ih _ _
    | throws => rfl
    | ub => rfl

/-- A row whose line has no points is undefined behaviour if one of its identifiers is new (seattle_importer.hpp 89, 101). -/
theorem seattle_empty_fails (proj : P → P) (rs : List (SeaRow P)) (hne : ∀ r ∈ rs, r.line ≠ []) (r : SeaRow P) (hr : r.line = [])
    (hid : ∀ x ∈ rs, x.from_ ≠ r.from_ ∧ x.to_ ≠ r.from_) (rs' : List (SeaRow P)) :
    seaRead proj ⟨[], []⟩ [] [rs ++ r :: rs'] = .ub := by
  obtain ⟨n, m, he, hinv, _, hv⟩ := seaRows_spec proj rs ⟨[], []⟩ [] [] ⟨by simp, by simp⟩ .nil hne
  rw [seaRead_flatten, List.flatten_singleton, seaRows_append, he, Outcome.bind_ok, seaRows]
  have hm : m.lookup r.from_ = none := by
    cases hl : m.lookup r.from_ with
    | none => rfl
    | some i =>
      obtain ⟨v, hv1, hv2⟩ := (hinv.map _ _).1 hl
      rcases hv v (List.mem_of_getElem? hv1) with h | ⟨x, hx, h⟩
      · simp at h
      · rcases h with h | h
        · exact absurd (h.1.symm.trans hv2) (hid x hx).1
        · exact absurd (h.1.symm.trans hv2) (hid x hx).2
  unfold seaVertex
  rw [hm, hr]
  rfl

example : (∀ r ∈ [(⟨7, 1, 2, false, [10, 20]⟩ : SeaRow Nat)], r.line ≠ []) ∧
    seaRead id ⟨[], []⟩ [] [[⟨7, 1, 2, false, [10, 20]⟩, ⟨8, 3, 1, false, ([] : List Nat)⟩]] = .ub := by decide

/-- **C44**, Seattle: the files together are one network.  Each identifier has one vertex; in order, every row gives its edge, and the opposite
one for a two-way row, between the vertices with its identifiers.  Rows have lines with points.  Missing: files that use identifiers for
nodes of their own (`seattle_fails`). -/
theorem seattle_partial (proj : P → P) (fs : List (List (SeaRow P))) (hne : ∀ r ∈ fs.flatten, r.line ≠ []) :
    ∃ n, seaRead proj ⟨[], []⟩ [] fs = .ok n ∧ (n.verts.map Vert.id).Nodup ∧
      List.Forall₂ (AsWanted n) n.edges (fs.flatten.flatMap rowEdges) ∧ ∀ v ∈ n.verts, FromRow proj fs.flatten v := by
  obtain ⟨n', m', he, hinv, hf, hv⟩ := seaRows_spec proj fs.flatten ⟨[], []⟩ [] [] ⟨by simp, by simp⟩ .nil hne
  refine ⟨n', by rw [seaRead_flatten, he]; rfl, hinv.nodup, by simpa using hf, fun v hv' => ?_⟩
  rcases hv v hv' with h | h
  · simp at h
  · exact h

/-- **C44 fails**, Seattle: nodes 1 and 2 of the second file, at 30 and 40, are taken for those of the first. -/
theorem seattle_fails : seaRead id ⟨[], []⟩ [] [[⟨7, 1, 2, false, [10, 20]⟩], [⟨8, 1, 2, false, [30, 40]⟩]] =
    .ok ⟨[⟨1, 10⟩, ⟨2, 20⟩], [⟨0, 1, 7, [10, 20]⟩, ⟨0, 1, 8, [30, 40]⟩]⟩ := by decide

/-! ### C59: edges run between their vertices -/

/-- The line begins at the point of the source and ends at the point of the target. -/
def Fits (n : Net P) (e : Edge P) : Prop :=
  ∃ v w, n.verts[e.src]? = some v ∧ n.verts[e.tgt]? = some w ∧ e.line.head? = some v.point ∧ e.line.getLast? = some w.point

theorem Fits.mono {n n' : Net P} {e : Edge P} (h : Fits n e) (vs : List (Vert P)) (hv : n'.verts = n.verts ++ vs) : Fits n' e := by
  obtain ⟨v, w, h1, h2, h3⟩ := h
  refine ⟨v, w, ?_, ?_, h3⟩
  · rw [hv, List.getElem?_append_left (List.getElem?_eq_some_iff.1 h1).1]; exact h1
  · rw [hv, List.getElem?_append_left (List.getElem?_eq_some_iff.1 h2).1]; exact h2

theorem joined_fits {n : Net P} {i j id : Nat} {e : Edge P} (h : joined n i j id = .ok e) : Fits n e := by
  unfold joined at h
  cases hi : n.verts[i]? with
  | none => rw [hi] at h; cases h
  | some a =>
    cases hj : n.verts[j]? with
    | none => rw [hi, hj] at h; cases h
    | some b =>
      rw [hi, hj] at h
      cases h
      exact ⟨a, b, hi, hj, rfl, rfl⟩

/-- **C59**, arcs and nodes: for every list of groups, every edge runs between its vertices. -/
theorem arc_fits (proj : P → P) (gs : List (ArcGroup P)) {n : Net P} (h : arcRead proj ⟨[], []⟩ gs = .ok n) : ∀ e ∈ n.edges, Fits n e := by
  have hedges : ∀ (m : List Nat) (as : List (Nat × Nat)) (n n' : Net P) (id : Nat), arcEdges m n id as = .ok n' → (∀ e ∈ n.edges, Fits n e) →
      ∀ e ∈ n'.edges, Fits n' e := by
    intro m as
    induction as with
    | nil => intro n n' id h hf; cases h; exact hf
    | cons a as ih =>
      obtain ⟨a, b⟩ := a
      intro n n' id h hf
      rw [arcEdges] at h
      cases ha : m[a]? with
      | none => rw [ha] at h; cases h
      | some i =>
        cases hb : m[b]? with
        | none => rw [ha, hb] at h; cases h
        | some j =>
          rw [ha, hb] at h
          simp only at h
          cases he : joined n i j id with
          | throws => rw [he] at h; cases h
          | ub => rw [he] at h; cases h
          | ok e =>
            rw [he, Outcome.bind_ok] at h
            refine ih _ _ _ h ?_
            intro e' he'
            simp only [addEdge, List.mem_append, List.mem_singleton] at he'
            rcases he' with he' | rfl
            · exact (hf e' he').mono [] (by simp [addEdge])
            · exact (joined_fits he).mono [] (by simp [addEdge])
  have key : ∀ (gs : List (ArcGroup P)) (n n' : Net P), arcRead proj n gs = .ok n' → (∀ e ∈ n.edges, Fits n e) → ∀ e ∈ n'.edges, Fits n' e := by
    intro gs
    induction gs with
    | nil => intro n n' h hf; cases h; exact hf
    | cons g gs ih =>
      intro n n' h hf
      rw [arcRead, arcNodes_spec] at h
      cases hg : arcEdges ([] ++ List.range' n.verts.length g.nodes.length)
          ⟨n.verts ++ (g.nodes.zipIdx 0).map (fun x => ⟨x.2, proj x.1⟩), n.edges⟩ 0 g.arcs with
      | throws => rw [hg] at h; cases h
      | ub => rw [hg] at h; cases h
      | ok n1 =>
        rw [hg, Outcome.bind_ok] at h
        exact ih _ _ h (hedges _ _ _ _ _ hg (fun e he => (hf e he).mono _ rfl))
  exact key gs _ _ h (by simp)

/-- **C59**, Melbourne: for every list of groups, every edge runs between its vertices. -/
theorem melbourne_fits (proj : P → P) (gs : List (MelGroup P)) {n : Net P} (h : melRead proj ⟨[], []⟩ [] gs = .ok n) : ∀ e ∈ n.edges, Fits n e := by
  have hedges : ∀ (m : List (Nat × Nat)) (as : List (Nat × Nat × Nat)) (n n' : Net P), melEdges m n as = .ok n' → (∀ e ∈ n.edges, Fits n e) →
      ∀ e ∈ n'.edges, Fits n' e := by
    intro m as
    induction as with
    | nil => intro n n' h hf; cases h; exact hf
    | cons a as ih =>
      obtain ⟨id, a, b⟩ := a
      intro n n' h hf
      rw [melEdges] at h
      cases ha : m.lookup a with
      | none => rw [ha] at h; cases h
      | some i =>
        cases hb : m.lookup b with
        | none => rw [ha, hb] at h; cases h
        | some j =>
          rw [ha, hb] at h
          simp only at h
          cases he : joined n i j id with
          | throws => rw [he] at h; cases h
          | ub => rw [he] at h; cases h
          | ok e =>
            rw [he, Outcome.bind_ok] at h
            refine ih _ _ h ?_
            intro e' he'
            simp only [addEdge, List.mem_append, List.mem_singleton] at he'
            rcases he' with he' | rfl
            · exact (hf e' he').mono [] (by simp [addEdge])
            · exact (joined_fits he).mono [] (by simp [addEdge])
  have key : ∀ (gs : List (MelGroup P)) (n n' : Net P) (m : List (Nat × Nat)), melRead proj n m gs = .ok n' → (∀ e ∈ n.edges, Fits n e) →
      ∀ e ∈ n'.edges, Fits n' e := by
    intro gs
    induction gs with
    | nil => intro n n' m h hf; cases h; exact hf
    | cons g gs ih =>
      intro n n' m h hf
      rw [melRead] at h
      obtain ⟨h1, _⟩ := readNodes_spec proj g.nodes n m
      cases hg : melEdges (readNodes proj n m g.nodes).2 (readNodes proj n m g.nodes).1 g.edges with
      | throws => rw [hg] at h; cases h
      | ub => rw [hg] at h; cases h
      | ok n1 =>
        rw [hg, Outcome.bind_ok] at h
        refine ih _ _ _ h (hedges _ _ _ _ hg ?_)
        rw [h1]
        exact fun e he => (hf e he).mono _ rfl
  exact key gs _ _ _ h (by simp)

/-- **C59**, Seattle: without reprojection, if the lines end at the same point for the same identifier.  Missing: reprojected networks
(`seattle_fits_fails`). -/
theorem seattle_fits_partial (fs : List (List (SeaRow P))) (at_ : Nat → P)
    (hends : ∀ r ∈ fs.flatten, r.line.head? = some (at_ r.from_) ∧ r.line.getLast? = some (at_ r.to_)) {n : Net P}
    (h : seaRead id ⟨[], []⟩ [] fs = .ok n) : ∀ e ∈ n.edges, Fits n e := by
  have hne : ∀ r ∈ fs.flatten, r.line ≠ [] := by
    intro r hr hc
    have := (hends r hr).1
    rw [hc] at this
    cases this
  obtain ⟨n', hn', _, hf, hv⟩ := seattle_partial id fs hne
  rw [hn'] at h
  cases h
  have hpos : ∀ v ∈ n.verts, v.point = at_ v.id := by
    intro v hv'
    obtain ⟨r, hr, ⟨h1, h2⟩ | ⟨h1, h2⟩⟩ := hv v hv'
    · rw [(hends r hr).1] at h2
      simp only [Option.map_some, id_eq, Option.some.injEq] at h2
      rw [h1, h2]
    · rw [(hends r hr).2] at h2
      simp only [Option.map_some, id_eq, Option.some.injEq] at h2
      rw [h1, h2]
  intro e he
  obtain ⟨k, hk, rfl⟩ := List.getElem_of_mem he
  have hlen := hf.length_eq
  have hw := List.Forall₂.get hf hk (by omega)
  simp only [List.get_eq_getElem] at hw
  obtain ⟨⟨⟨v, hv1, hv2⟩, ⟨w, hw1, hw2⟩⟩, _, hline⟩ := hw
  have hx : ∀ x ∈ fs.flatten.flatMap rowEdges, x.2.2.2.head? = some (at_ x.1) ∧ x.2.2.2.getLast? = some (at_ x.2.1) := by
    intro x hx
    obtain ⟨r, hr, hx⟩ := List.mem_flatMap.1 hx
    unfold rowEdges at hx
    obtain ⟨h1, h2⟩ := hends r hr
    rcases List.mem_cons.1 hx with rfl | hx
    · exact ⟨h1, h2⟩
    · split at hx
      · simp only [List.mem_singleton] at hx
        subst hx
        simp [h1, h2]
      · simp at hx
  have := hx _ (List.getElem_mem (l := fs.flatten.flatMap rowEdges) (by omega : k < _))
  refine ⟨v, w, hv1, hw1, ?_, ?_⟩
  · rw [hline, this.1, hpos v (List.mem_of_getElem? hv1), hv2]
  · rw [hline, this.2, hpos w (List.mem_of_getElem? hw1), hw2]

theorem cupEdges_verts (vm : List (Nat × Nat)) (em : List (Nat × (Nat × Nat))) (ls : List (Nat × List P)) : ∀ (n n' : Net P),
    cupEdges vm em n ls = .ok n' → n'.verts = n.verts ∧ ∃ es, n'.edges = n.edges ++ es ∧
      ∀ e ∈ es, ∃ l ∈ ls, e.id = l.1 ∧ e.line = l.2 ∧ ∃ f t, em.lookup l.1 = some (f, t) ∧ vm.lookup f = some e.src ∧ vm.lookup t = some e.tgt := by
  induction ls with
  | nil => intro n n' h; cases h; exact ⟨rfl, [], by simp, by simp⟩
  | cons l ls ih =>
    obtain ⟨id, line⟩ := l
    intro n n' h
    rw [cupEdges] at h
    cases he : em.lookup id with
    | none => rw [he] at h; cases h
    | some ft =>
      obtain ⟨f, t⟩ := ft
      cases hf : vm.lookup f with
      | none => rw [he] at h; simp only [hf] at h; cases h
      | some i =>
        cases ht : vm.lookup t with
        | none => rw [he] at h; simp only [hf, ht] at h; cases h
        | some j =>
          rw [he] at h
          simp only [hf, ht] at h
          obtain ⟨h1, es, h2, h3⟩ := ih _ _ h
          refine ⟨h1, ⟨i, j, id, line⟩ :: es, by rw [h2]; simp [addEdge], ?_⟩
          intro e hm
          rcases List.mem_cons.1 hm with rfl | hm
          · exact ⟨(id, line), List.mem_cons_self .., rfl, rfl, f, t, he, hf, ht⟩
          · obtain ⟨l, hl, hh⟩ := h3 e hm
            exact ⟨l, List.mem_cons_of_mem _ hl, hh⟩

/-- **C59**, GIS Cup: without reprojection, if over all files a node has one place, an edge has one pair of ends, and the lines run between the
places of the ends of their edges.  Missing: reprojected networks (`giscup_fits_fails`). -/
theorem giscup_fits_partial (gs : List (CupGroup P)) (at_ : Nat → P) (ends : Nat → Nat × Nat)
    (hnodes : ∀ g ∈ gs, ∀ x ∈ g.nodes, x.2 = at_ x.1) (hedges : ∀ g ∈ gs, ∀ e ∈ g.edges, e.2 = ends e.1)
    (hlines : ∀ g ∈ gs, ∀ l ∈ g.lines, l.2.head? = some (at_ (ends l.1).1) ∧ l.2.getLast? = some (at_ (ends l.1).2)) {n : Net P}
    (h : cupRead id ⟨[], []⟩ [] [] gs = .ok n) : ∀ e ∈ n.edges, Fits n e := by
  have key : ∀ (gs : List (CupGroup P)) (n n' : Net P) (vm : List (Nat × Nat)) (em : List (Nat × (Nat × Nat))),
      (∀ g ∈ gs, ∀ x ∈ g.nodes, x.2 = at_ x.1) → (∀ g ∈ gs, ∀ e ∈ g.edges, e.2 = ends e.1) →
      (∀ g ∈ gs, ∀ l ∈ g.lines, l.2.head? = some (at_ (ends l.1).1) ∧ l.2.getLast? = some (at_ (ends l.1).2)) →
      (∀ k i, vm.lookup k = some i → n.verts[i]? = some ⟨k, at_ k⟩) → (∀ k x, em.lookup k = some x → x = ends k) →
      (∀ e ∈ n.edges, Fits n e) → cupRead id n vm em gs = .ok n' → ∀ e ∈ n'.edges, Fits n' e := by
    intro gs
    induction gs with
    | nil => intro n n' vm em _ _ _ _ _ hf h; cases h; exact hf
    | cons g gs ih =>
      intro n n' vm em hn he hl hvm hem hf h
      rw [cupRead] at h
      obtain ⟨h1, h2⟩ := readNodes_spec id g.nodes n vm
      have hvm' : ∀ k i, (readNodes id n vm g.nodes).2.lookup k = some i → (readNodes id n vm g.nodes).1.verts[i]? = some ⟨k, at_ k⟩ := by
        intro k i hk
        rw [h2] at hk
        rw [h1]
        simp only
        cases ho : vm.lookup k with
        | some j =>
          rw [ho, Option.some_or] at hk
          cases hk
          have := hvm k i ho
          rw [List.getElem?_append_left (List.getElem?_eq_some_iff.1 this).1]
          exact this
        | none =>
          rw [ho, Option.none_or] at hk
          split at hk
          · rename_i hin
            cases hk
            obtain ⟨p, hp⟩ := position_spec hin
            rw [List.getElem?_append_right (by omega), Nat.add_sub_cancel_left, List.getElem?_map, hp]
            have := hn g (List.mem_cons_self ..) (k, p) (List.mem_of_getElem? hp)
            simp only at this
            simp [this]
          · cases hk
      have hem' : ∀ k x, (cupMap em g.edges).lookup k = some x → x = ends k := by
        intro k x hk
        rw [cupMap_lookup] at hk
        cases ho : em.lookup k with
        | some y => rw [ho, Option.some_or] at hk; cases hk; exact hem k x ho
        | none =>
          rw [ho, Option.none_or, Option.map_eq_some_iff] at hk
          obtain ⟨e, hfe, rfl⟩ := hk
          have h3 := List.find?_some hfe
          simp only [decide_eq_true_eq] at h3
          rw [← h3]
          exact he g (List.mem_cons_self ..) e (List.mem_of_find?_eq_some hfe)
      cases hg : cupEdges (readNodes id n vm g.nodes).2 (cupMap em g.edges) (readNodes id n vm g.nodes).1 g.lines with
      | throws => rw [hg] at h; cases h
      | ub => rw [hg] at h; cases h
      | ok n1 =>
        rw [hg, Outcome.bind_ok] at h
        obtain ⟨v1, es, e1, e2⟩ := cupEdges_verts _ _ _ _ _ hg
        refine ih _ _ _ _ (fun g' hg' => hn g' (List.mem_cons_of_mem _ hg')) (fun g' hg' => he g' (List.mem_cons_of_mem _ hg'))
          (fun g' hg' => hl g' (List.mem_cons_of_mem _ hg')) ?_ hem' ?_ h
        · rw [v1]; exact hvm'
        · intro e hmem
          rw [e1, h1] at hmem
          rcases List.mem_append.1 hmem with hmem | hmem
          · exact (hf e hmem).mono (g.nodes.map (fun x => ⟨x.1, id x.2⟩)) (by rw [v1, h1])
          · obtain ⟨l, hl', hid, hline, f, t, hft, hfs, hts⟩ := e2 e hmem
            have hx := hem' _ _ hft
            obtain ⟨l1, l2⟩ := hl g (List.mem_cons_self ..) l hl'
            rw [← hx] at l1 l2
            exact ⟨_, _, by rw [v1]; exact hvm' _ _ hfs, by rw [v1]; exact hvm' _ _ hts, by rw [hline]; exact l1, by rw [hline]; exact l2⟩
  exact key gs _ _ _ _ hnodes hedges hlines (by simp) (by simp) (by simp) h

example : ∃ (gs : List (CupGroup Nat)) (n : Net Nat) (at_ : Nat → Nat) (ends : Nat → Nat × Nat),
    (∀ g ∈ gs, ∀ x ∈ g.nodes, x.2 = at_ x.1) ∧ (∀ g ∈ gs, ∀ e ∈ g.edges, e.2 = ends e.1) ∧
    (∀ g ∈ gs, ∀ l ∈ g.lines, l.2.head? = some (at_ (ends l.1).1) ∧ l.2.getLast? = some (at_ (ends l.1).2)) ∧
    cupRead id ⟨[], []⟩ [] [] gs = .ok n ∧ n.edges = [⟨0, 1, 7, [10, 15, 20]⟩] :=
  ⟨[⟨[(1, 10), (2, 20)], [(7, 1, 2)], [(7, [10, 15, 20])]⟩], _, (· * 10), fun _ => (1, 2), by decide, by decide, by decide, rfl, by decide⟩

/-- **C59 fails**, Seattle: with reprojection the vertices are reprojected and the lines are not. -/
theorem seattle_fits_fails : ∃ n, seaRead (· + 100) ⟨[], []⟩ [] [[⟨7, 1, 2, false, [10, 20]⟩]] = .ok n ∧ ¬ ∀ e ∈ n.edges, Fits n e := by
  refine ⟨⟨[⟨1, 110⟩, ⟨2, 120⟩], [⟨0, 1, 7, [10, 20]⟩]⟩, by decide, ?_⟩
  intro h
  obtain ⟨v, w, h1, _, h3, _⟩ := h _ (List.mem_singleton.2 rfl)
  simp only [List.getElem?_cons_zero, Option.some.injEq] at h1
  subst h1
  simp at h3

/-- **C59 fails**, GIS Cup: with reprojection the vertices are reprojected and the lines are not. -/
theorem giscup_fits_fails : ∃ n, cupRead (· + 100) ⟨[], []⟩ [] [] [⟨[(1, 10), (2, 20)], [(7, 1, 2)], [(7, [10, 20])]⟩] = .ok n ∧
    ¬ ∀ e ∈ n.edges, Fits n e := by
  refine ⟨⟨[⟨1, 110⟩, ⟨2, 120⟩], [⟨0, 1, 7, [10, 20]⟩]⟩, by decide, ?_⟩
  intro h
  obtain ⟨v, w, h1, _, h3, _⟩ := h _ (List.mem_singleton.2 rfl)
  simp only [List.getElem?_cons_zero, Option.some.injEq] at h1
  subst h1
  simp at h3

example : ∃ fs : List (List (SeaRow Nat)), ∃ at_ : Nat → Nat,
    (∀ r ∈ fs.flatten, r.line.head? = some (at_ r.from_) ∧ r.line.getLast? = some (at_ r.to_)) ∧
    seaRead id ⟨[], []⟩ [] fs = .ok ⟨[⟨1, 10⟩, ⟨2, 20⟩, ⟨3, 30⟩], [⟨0, 1, 7, [10, 15, 20]⟩, ⟨1, 0, 7, [20, 15, 10]⟩, ⟨1, 2, 8, [20, 30]⟩]⟩ :=
  ⟨[[⟨7, 1, 2, true, [10, 15, 20]⟩], [⟨8, 2, 3, false, [20, 30]⟩]], (· * 10), by decide, by decide⟩

/-- Reading GIS Cup files ends with a network or an exception; an exception exactly if a line names an edge that no edge file read so far has,
or one that names a node that no node file read so far has. -/
theorem giscup_refused (vm : List (Nat × Nat)) (em : List (Nat × (Nat × Nat))) (ls : List (Nat × List P)) : ∀ n : Net P,
    cupEdges vm em n ls ≠ .ub ∧ (cupEdges vm em n ls = .throws ↔
      ∃ l ∈ ls, ∀ f t, em.lookup l.1 = some (f, t) → vm.lookup f = none ∨ vm.lookup t = none) := by
  induction ls with
  | nil => intro n; simp [cupEdges]
  | cons l ls ih =>
    intro n
    obtain ⟨id, line⟩ := l
    rw [cupEdges]
    cases he : em.lookup id with
    | none => simp [-List.lookup_eq_none_iff, he]
    | some ft =>
      obtain ⟨f, t⟩ := ft
      simp only
      cases hf : vm.lookup f with
      | none => simp [-List.lookup_eq_none_iff, he, hf]
      | some i =>
        cases ht : vm.lookup t with
        | none => simp [-List.lookup_eq_none_iff, he, hf, ht]
        | some j =>
          simp only
          refine ⟨(ih _).1, (ih _).2.trans ?_⟩
          simp [-List.lookup_eq_none_iff, he, hf, ht]

/-- The whole import never goes wrong in another way. -/
theorem giscup_no_ub (proj : P → P) (gs : List (CupGroup P)) : ∀ (n : Net P) (vm : List (Nat × Nat)) (em : List (Nat × (Nat × Nat))),
    cupRead proj n vm em gs ≠ .ub := by
  induction gs with
  | nil => intro n vm em; simp [cupRead]
  | cons g gs ih =>
    intro n vm em
    rw [cupRead]
    cases h : cupEdges (readNodes proj n vm g.nodes).2 (cupMap em g.edges) (readNodes proj n vm g.nodes).1 g.lines with
    | ok n' => exact ih _ _ _
    | throws => simp
    | ub => exact absurd h (giscup_refused _ _ _ _).1

example : cupRead id (⟨[], []⟩ : Net Nat) [] [] [⟨[(1, 10), (2, 20)], [(7, 1, 3)], [(7, [10, 20])]⟩] = .throws := by decide

theorem melEdges_refused (m : List (Nat × Nat)) (es : List (Nat × Nat × Nat)) : ∀ n : Net P, (∀ k i, m.lookup k = some i → i < n.verts.length) →
    melEdges m n es ≠ .ub ∧ (melEdges m n es = .throws ↔ ∃ e ∈ es, m.lookup e.2.1 = none ∨ m.lookup e.2.2 = none) ∧
    ∀ n', melEdges m n es = .ok n' → n'.verts = n.verts := by
  induction es with
  | nil => intro n _; simp [melEdges]
  | cons e es ih =>
    intro n hm
    obtain ⟨id, f, t⟩ := e
    rw [melEdges]
    cases hf : m.lookup f with
    | none => simp [-List.lookup_eq_none_iff, hf]
    | some i =>
      cases ht : m.lookup t with
      | none => simp [-List.lookup_eq_none_iff, ht]
      | some j =>
        have hi := hm f i hf
        have hj := hm t j ht
        obtain ⟨h1, h2, h3⟩ := ih (addEdge n ⟨i, j, id, [n.verts[i].point, n.verts[j].point]⟩) hm
        simp only [joined, List.getElem?_eq_getElem hi, List.getElem?_eq_getElem hj, Outcome.bind_ok]
        refine ⟨h1, h2.trans ?_, h3⟩
        simp [-List.lookup_eq_none_iff, hf, ht]

/-- **C44**, Melbourne: the import ends with a network or an exception, with an exception exactly if the end of an edge is not among the nodes
of the files read so far, its own group included. -/
theorem melbourne_refused (proj : P → P) (gs : List (MelGroup P)) : melRead proj ⟨[], []⟩ [] gs ≠ .ub ∧
    (melRead proj ⟨[], []⟩ [] gs = .throws ↔ ∃ pre g post, gs = pre ++ g :: post ∧ ∃ e ∈ g.edges, ∃ k, (k = e.2.1 ∨ k = e.2.2) ∧
      ∀ h ∈ pre ++ [g], k ∉ h.nodes.map Prod.fst) := by
  have key : ∀ (gs : List (MelGroup P)) (n : Net P) (m : List (Nat × Nat)), (∀ k i, m.lookup k = some i → i < n.verts.length) →
      melRead proj n m gs ≠ .ub ∧ (melRead proj n m gs = .throws ↔ ∃ pre g post, gs = pre ++ g :: post ∧ ∃ e ∈ g.edges, ∃ k,
        (k = e.2.1 ∨ k = e.2.2) ∧ m.lookup k = none ∧ ∀ h ∈ pre ++ [g], k ∉ h.nodes.map Prod.fst) := by
    intro gs
    induction gs with
    | nil => intro n m _; simp [melRead]
    | cons g gs ih =>
      intro n m hm
      obtain ⟨h1, h2⟩ := readNodes_spec proj g.nodes n m
      have hm' : ∀ k i, (readNodes proj n m g.nodes).2.lookup k = some i → i < (readNodes proj n m g.nodes).1.verts.length := by
        intro k i hk
        rw [h2] at hk
        rw [h1]
        simp only [List.length_append, List.length_map]
        cases hl : m.lookup k with
        | some i' => rw [hl] at hk; cases hk; have := hm k i hl; omega
        | none =>
          rw [hl, Option.none_or] at hk
          split_ifs at hk with hmem
          cases hk
          obtain ⟨p, hp⟩ := position_spec hmem
          have := (List.getElem?_eq_some_iff.1 hp).1
          omega
      have hnone : ∀ k, (readNodes proj n m g.nodes).2.lookup k = none ↔ m.lookup k = none ∧ k ∉ g.nodes.map Prod.fst := by
        intro k
        rw [h2]
        cases m.lookup k with
        | some i => simp
        | none => rw [Option.none_or]; split_ifs with hmem <;> simp [hmem]
      obtain ⟨e1, e2, e3⟩ := melEdges_refused (readNodes proj n m g.nodes).2 g.edges (readNodes proj n m g.nodes).1 hm'
      have hsplit : (∃ pre g' post, g :: gs = pre ++ g' :: post ∧ ∃ e ∈ g'.edges, ∃ k,
            (k = e.2.1 ∨ k = e.2.2) ∧ m.lookup k = none ∧ ∀ h ∈ pre ++ [g'], k ∉ h.nodes.map Prod.fst) ↔
          (∃ e ∈ g.edges, (readNodes proj n m g.nodes).2.lookup e.2.1 = none ∨ (readNodes proj n m g.nodes).2.lookup e.2.2 = none) ∨
          ∃ pre g' post, gs = pre ++ g' :: post ∧ ∃ e ∈ g'.edges, ∃ k, (k = e.2.1 ∨ k = e.2.2) ∧
            (readNodes proj n m g.nodes).2.lookup k = none ∧ ∀ h ∈ pre ++ [g'], k ∉ h.nodes.map Prod.fst := by
        constructor
        · rintro ⟨pre, g', post, hg, e, he, k, hk, hk1, hk2⟩
          cases pre with
          | nil =>
            simp only [List.nil_append, List.cons.injEq] at hg
            obtain ⟨rfl, rfl⟩ := hg
            have hk3 := (hnone k).2 ⟨hk1, hk2 g (by simp)⟩
            rcases hk with rfl | rfl
            · exact .inl ⟨e, he, .inl hk3⟩
            · exact .inl ⟨e, he, .inr hk3⟩
          | cons p pre =>
            simp only [List.cons_append, List.cons.injEq] at hg
            obtain ⟨rfl, rfl⟩ := hg
            exact .inr ⟨pre, g', post, rfl, e, he, k, hk, (hnone k).2 ⟨hk1, hk2 g (by simp)⟩, fun h hh => hk2 h (by
              simp only [List.cons_append, List.mem_cons]; exact .inr hh)⟩
        · rintro (⟨e, he, hk⟩ | ⟨pre, g', post, rfl, e, he, k, hk, hk1, hk2⟩)
          · rcases hk with hk | hk
            · exact ⟨[], g, gs, rfl, e, he, _, .inl rfl, ((hnone _).1 hk).1, by simpa using ((hnone _).1 hk).2⟩
            · exact ⟨[], g, gs, rfl, e, he, _, .inr rfl, ((hnone _).1 hk).1, by simpa using ((hnone _).1 hk).2⟩
          · refine ⟨g :: pre, g', post, rfl, e, he, k, hk, ((hnone k).1 hk1).1, ?_⟩
            intro h hh
            simp only [List.cons_append, List.mem_cons] at hh
            rcases hh with rfl | hh
            · exact ((hnone k).1 hk1).2
            · exact hk2 h hh
      rw [melRead, hsplit]
      cases hr : melEdges (readNodes proj n m g.nodes).2 (readNodes proj n m g.nodes).1 g.edges with
      | ub => exact absurd hr e1
      | throws =>
        rw [hr] at e2
        simp only [Outcome.bind_throws, ne_eq, reduceCtorEq, not_false_eq_true, true_and, true_iff]
        exact .inl (e2.1 rfl)
      | ok n' =>
        rw [hr] at e2
        rw [Outcome.bind_ok]
        obtain ⟨i1, i2⟩ := ih n' (readNodes proj n m g.nodes).2 (fun k i hk => by rw [e3 n' hr]; exact hm' k i hk)
        refine ⟨i1, i2.trans ?_⟩
        constructor
        · exact .inr
        · rintro (h | h)
          · exact absurd (e2.2 h) (by simp)
          · exact h
  obtain ⟨k1, k2⟩ := key gs ⟨[], []⟩ [] (by simp)
  refine ⟨k1, k2.trans ?_⟩
  simp

example : melRead id (⟨[], []⟩ : Net Nat) [] [⟨[(1, 10), (2, 20)], [(7, 1, 2)]⟩, ⟨[(3, 30)], [(8, 3, 1), (9, 3, 4)]⟩] = .throws ∧
    melRead id (⟨[], []⟩ : Net Nat) [] [⟨[(1, 10), (2, 20)], [(7, 1, 2)]⟩, ⟨[(3, 30)], [(8, 3, 1)]⟩] ≠ .throws := by decide

end MM.NetFiles
