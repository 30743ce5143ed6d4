import Verif.Proofs.TagFlow

/-!
# C112: tags of nodes and roads arrive in the prepared network
-/

set_option autoImplicit false
set_option linter.unusedSectionVars false

namespace MM.TagFlow

/-! ### What is told about tags, without identifiers and storages -/

/-- Tags of the nodes of the files, of the vertices and of the roads of the graph, as pairs. -/
structure Told where
  files : Nat → List Pair := fun _ => []
  nodes : Nat → List Pair := fun _ => []
  ways : Nat → List Pair := fun _ => []
  roads : List Road := []

/-- A value at one place. -/
def at_ (f : Nat → List Pair) (i : Nat) (ts : List Pair) : Nat → List Pair := fun k => if k = i then ts else f k

/-- The first tags count. -/
def first (f : Nat → List Pair) (i : Nat) (ts : List Pair) : Nat → List Pair := if f i = [] then at_ f i ts else f

/-- Tags of one are followed by those of the other that are missing. -/
def union (f : Nat → List Pair) (i j : Nat) : Nat → List Pair :=
  at_ f i (f i ++ (f j).filter (fun t => decide (t ∉ f i)))

/-- What one step tells. -/
def Told.step (t : Told) : Op → Told
  | .node i ts => { t with files := first t.files i ts }
  | .vertex i => { t with nodes := first t.nodes i (t.files i) }
  | .edge i ts => { t with ways := first t.ways i ts, roads := t.roads ++ [⟨i, [i]⟩] }
  | .merge complete a b =>
    match t.roads[a]?, t.roads[b]? with
    | some r, some s =>
      if a ≠ b ∧ (complete = true ∨ r.id = s.id) then
        { t with ways := union t.ways r.id s.id,
                 roads := ((t.roads.eraseIdx (max a b)).eraseIdx (min a b)) ++ [⟨r.id, r.parts ++ s.parts⟩] }
      else t
    | _, _ => t

/-- What a whole history tells. -/
def Told.run (t : Told) (ops : List Op) : Told := ops.foldl Told.step t

/-- The storages hold what was told. -/
structure Fits (w : World) (t : Told) : Prop where
  handler : ∃ f, Holds w.handler f ∧ f .nodes = t.files
  graph : ∃ f, Holds w.graph f ∧ f .nodes = t.nodes ∧ f .edges = t.ways
  roads : w.roads = t.roads
  openH : w.handler.st.finalized = false
  openG : w.graph.st.finalized = false

theorem give_same (f : Which → Nat → List Pair) (w : Which) (i : Nat) (ts : List Pair) : give f w i ts w = first (f w) i ts := by
  funext k
  simp only [give, first, true_and]
  by_cases h : f w i = []
  · simp [h, at_]
  · simp [h]

theorem give_other (f : Which → Nat → List Pair) (w w' : Which) (i : Nat) (ts : List Pair) (h : w' ≠ w) : give f w i ts w' = f w' := by
  funext k
  simp [give, h]

theorem fits_step {w : World} {t : Told} (h : Fits w t) (op : Op) : ∃ w', w.step op = .ok w' ∧ Fits w' (t.step op) := by
  obtain ⟨f, hf, hf1⟩ := h.handler
  obtain ⟨g, hg, hg1, hg2⟩ := h.graph
  cases op with
  | node i ts =>
    obtain ⟨b, h1, h2, h3⟩ := set_spec hf h.openH .nodes i ts
    refine ⟨{ w with handler := b }, by rw [World.step, h1, Outcome.map_ok], ⟨⟨_, h2, ?_⟩, ⟨g, hg, hg1, hg2⟩, h.roads, h3, h.openG⟩⟩
    rw [give_same, hf1]; rfl
  | vertex i =>
    obtain ⟨b, h1, h2, h3⟩ := clone_spec hg h.openG hf .nodes i
    refine ⟨{ w with graph := b }, by rw [World.step, h1, Outcome.map_ok], ⟨⟨f, hf, hf1⟩, ⟨_, h2, ?_, ?_⟩, h.roads, h.openH, h3⟩⟩
    · rw [give_same, hg1, hf1]; rfl
    · rw [give_other _ _ _ _ _ (by decide), hg2]; rfl
  | edge i ts =>
    obtain ⟨b, h1, h2, h3⟩ := set_spec hg h.openG .edges i ts
    refine ⟨{ w with graph := b, roads := w.roads ++ [⟨i, [i]⟩] }, by rw [World.step, h1, Outcome.map_ok],
      ⟨⟨f, hf, hf1⟩, ⟨_, h2, ?_, ?_⟩, ?_, h.openH, h3⟩⟩
    · rw [give_other _ _ _ _ _ (by decide), hg1]; rfl
    · rw [give_same, hg2]; rfl
    · show w.roads ++ _ = t.roads ++ _
      rw [h.roads]
  | merge complete a b =>
    refine ⟨_, rfl, ?_⟩
    simp only [World.mergeAt, Told.step]
    rw [h.roads]
    cases ha : t.roads[a]? with
    | none => exact h
    | some r =>
      cases hb : t.roads[b]? with
      | none => exact h
      | some s =>
        simp only
        have hj : joins w.graph complete r s = true ↔ (complete = true ∨ r.id = s.id) := by
          simp only [joins, Bool.or_eq_true, Bool.and_eq_true, decide_eq_true_eq]
          constructor
          · rintro (h1 | h1)
            · exact .inl h1
            · exact .inr h1.1
          · rintro (h1 | h1)
            · exact .inl h1
            · exact .inr ⟨h1, by rw [h1]⟩
        by_cases hc : a ≠ b ∧ (complete = true ∨ r.id = s.id)
        · rw [if_pos hc, if_pos ⟨hc.1, hj.2 hc.2⟩]
          refine ⟨⟨f, hf, hf1⟩, ⟨_, merge_spec hg r.id s.id, ?_, ?_⟩, rfl, h.openH, h.openG⟩
          · funext k
            simp only [joined, reduceCtorEq, false_and, if_false]
            rw [hg1]
          · funext k
            simp only [joined, true_and, union, at_]
            rw [hg2]
        · rw [if_neg hc, if_neg (fun h' => hc ⟨h'.1, hj.1 h'.2⟩)]
          exact h

theorem fits_run (ops : List Op) : ∀ {w : World} {t : Told}, Fits w t → ∃ w', w.run ops = .ok w' ∧ Fits w' (t.run ops) := by
  induction ops with
  | nil => intro w t h; exact ⟨w, rfl, h⟩
  | cons op ops ih =>
    intro w t h
    obtain ⟨w1, h1, h2⟩ := fits_step h op
    obtain ⟨w2, h3, h4⟩ := ih h2
    exact ⟨w2, by rw [World.run, h1, Outcome.bind_ok, h3], h4⟩

theorem fits_empty : Fits {} {} :=
  ⟨⟨_, holds_empty, rfl⟩, ⟨_, holds_empty, rfl, rfl⟩, rfl, rfl, rfl⟩

/-- **C112.**  No history of reading and merging ends with an exception, and afterwards the tags of every node and every road are,
pair by pair and in order, those told: what identifiers the pairs got, in which storage, makes no difference. -/
theorem tags_exact (ops : List Op) : ∃ w, ({} : World).run ops = .ok w ∧ w.roads = (Told.run {} ops).roads ∧
    ∀ i, w.handler.read .nodes i = .ok ((Told.run {} ops).files i) ∧ w.graph.read .nodes i = .ok ((Told.run {} ops).nodes i) ∧
      w.graph.read .edges i = .ok ((Told.run {} ops).ways i) := by
  obtain ⟨w, h1, h2⟩ := fits_run ops fits_empty
  obtain ⟨f, hf, hf1⟩ := h2.handler
  obtain ⟨g, hg, hg1, hg2⟩ := h2.graph
  refine ⟨w, h1, h2.roads, fun i => ⟨?_, ?_, ?_⟩⟩
  · rw [hf.read, hf1]
  · rw [hg.read, hg1]
  · rw [hg.read, hg2]

/-! ### Nodes -/

theorem told_append (t : Told) (a b : List Op) : t.run (a ++ b) = (t.run a).run b := List.foldl_append

theorem files_only (ops : List Op) : ∀ (t : Told) (i : Nat), (t.run ops).files i = t.files i ∨ .node i ((t.run ops).files i) ∈ ops := by
  induction ops with
  | nil => intro t i; exact .inl rfl
  | cons op ops ih =>
    intro t i
    rcases ih (t.step op) i with h | h
    · show ((t.step op).run ops).files i = _ ∨ Op.node i (((t.step op).run ops).files i) ∈ _
      rw [h]
      cases op with
      | node j ts =>
        simp only [Told.step, first]
        split
        · simp only [at_]
          split
          · next hk => subst hk; exact .inr List.mem_cons_self
          · exact .inl rfl
        · exact .inl rfl
      | vertex j => exact .inl rfl
      | edge j ts => exact .inl rfl
      | merge c a b =>
        left
        simp only [Told.step]
        split
        · split <;> rfl
        · rfl
    · exact .inr (List.mem_cons_of_mem _ h)

theorem files_step_merge (t : Told) (c : Bool) (a b : Nat) : (t.step (.merge c a b)).files = t.files ∧ (t.step (.merge c a b)).nodes = t.nodes := by
  simp only [Told.step]
  split
  · split <;> exact ⟨rfl, rfl⟩
  · exact ⟨rfl, rfl⟩

theorem nodes_only (ops : List Op) : ∀ (t : Told) (i : Nat), (t.run ops).nodes i = t.nodes i ∨ (t.run ops).nodes i = t.files i ∨
    .node i ((t.run ops).nodes i) ∈ ops := by
  induction ops with
  | nil => intro t i; exact .inl rfl
  | cons op ops ih =>
    intro t i
    show ((t.step op).run ops).nodes i = _ ∨ ((t.step op).run ops).nodes i = _ ∨ Op.node i (((t.step op).run ops).nodes i) ∈ _
    rcases ih (t.step op) i with h | h | h
    · rw [h]
      cases op with
      | node j ts => exact .inl rfl
      | vertex j =>
        simp only [Told.step, first]
        split
        · simp only [at_]
          split
          · next hk => subst hk; exact .inr (.inl rfl)
          · exact .inl rfl
        · exact .inl rfl
      | edge j ts => exact .inl rfl
      | merge c a b => left; rw [(files_step_merge t c a b).2]
    · rw [h]
      cases op with
      | node j ts =>
        simp only [Told.step, first]
        split
        · simp only [at_]
          split
          · next hk => subst hk; exact .inr (.inr List.mem_cons_self)
          · exact .inr (.inl rfl)
        · exact .inr (.inl rfl)
      | vertex j => exact .inr (.inl rfl)
      | edge j ts => exact .inr (.inl rfl)
      | merge c a b => right; left; rw [(files_step_merge t c a b).1]
    · exact .inr (.inr (List.mem_cons_of_mem _ h))

/-- **C112.**  A vertex has the tags of a node with its identifier, or none. -/
theorem node_only (ops : List Op) {w : World} (h : ({} : World).run ops = .ok w) (i : Nat) :
    ∃ ts, w.graph.read .nodes i = .ok ts ∧ (ts = [] ∨ .node i ts ∈ ops) := by
  obtain ⟨w', h1, _, h2⟩ := tags_exact ops
  rw [h] at h1
  cases Outcome.ok.inj h1
  refine ⟨_, (h2 i).2.1, ?_⟩
  rcases nodes_only ops {} i with h | h | h
  · exact .inl h
  · exact .inl h
  · exact .inr h

theorem first_keeps {f : Nat → List Pair} {i j : Nat} {ts us : List Pair} (h : f i = ts) (hne : ts ≠ []) : first f j us i = ts := by
  simp only [first]
  split
  · next hj =>
    simp only [at_]
    split
    · next hk => rw [hk] at h; rw [hj] at h; exact absurd h.symm hne
    · exact h
  · exact h

theorem files_kept (ops : List Op) : ∀ (t : Told) (i : Nat) (ts : List Pair), t.files i = ts → ts ≠ [] → (t.run ops).files i = ts := by
  induction ops with
  | nil => intro t i ts h _; exact h
  | cons op ops ih =>
    intro t i ts h hne
    refine ih (t.step op) i ts ?_ hne
    cases op with
    | node j us => exact first_keeps h hne
    | vertex j => exact h
    | edge j us => exact h
    | merge c a b => rw [(files_step_merge t c a b).1]; exact h

theorem nodes_kept (ops : List Op) : ∀ (t : Told) (i : Nat) (ts : List Pair), t.nodes i = ts → ts ≠ [] → (t.run ops).nodes i = ts := by
  induction ops with
  | nil => intro t i ts h _; exact h
  | cons op ops ih =>
    intro t i ts h hne
    refine ih (t.step op) i ts ?_ hne
    cases op with
    | node j us => exact h
    | vertex j => exact first_keeps h hne
    | edge j us => exact h
    | merge c a b => rw [(files_step_merge t c a b).2]; exact h

/-- **C112.**  A node that was read before it became a vertex gives its tags to the vertex, if all nodes with the identifier have the
same tags (the handler takes only one of them, C39). -/
theorem node_tags (before between after : List Op) (i : Nat) (ts : List Pair)
    (hu : ∀ us, .node i us ∈ before ++ .node i ts :: (between ++ .vertex i :: after) → us = ts) {w : World}
    (h : ({} : World).run (before ++ .node i ts :: (between ++ .vertex i :: after)) = .ok w) :
    w.graph.read .nodes i = .ok ts := by
  by_cases hne : ts = []
  · obtain ⟨us, h1, h2⟩ := node_only _ h i
    rw [h1]
    rcases h2 with h2 | h2
    · rw [h2, hne]
    · rw [hu us h2]
  · obtain ⟨w', h1, _, h2⟩ := tags_exact (before ++ .node i ts :: (between ++ .vertex i :: after))
    rw [h] at h1
    cases Outcome.ok.inj h1
    rw [(h2 i).2.1]
    congr 1
    rw [told_append]
    show (((Told.run {} before).step (.node i ts)).run (between ++ .vertex i :: after)).nodes i = ts
    have hb : (Told.run {} before).files i = [] ∨ (Told.run {} before).files i = ts := by
      rcases files_only before {} i with h | h
      · exact .inl h
      · exact .inr (hu _ (List.mem_append_left _ h))
    have hs : ((Told.run {} before).step (.node i ts)).files i = ts := by
      simp only [Told.step, first]
      rcases hb with hb | hb
      · rw [if_pos hb]; simp [at_]
      · rw [if_neg (by rw [hb]; exact hne), hb]
    rw [told_append]
    have hn0 : ((Told.run {} before).step (.node i ts)).nodes i = [] ∨ .node i (((Told.run {} before).step (.node i ts)).nodes i) ∈ before := by
      rcases nodes_only before {} i with h | h | h
      · exact .inl h
      · exact .inl h
      · exact .inr h
    generalize (Told.run {} before).step (.node i ts) = t1 at hs hn0 ⊢
    have hf := files_kept between _ i ts hs hne
    have hn := nodes_only between t1 i
    show (((t1.run between).step (.vertex i)).run after).nodes i = ts
    refine nodes_kept after _ i ts ?_ hne
    generalize t1.run between = t2 at hf hn ⊢
    simp only [Told.step, first]
    rw [hf]
    split
    · simp [at_]
    · next hc =>
      rcases hn with hn | hn | hn
      · rw [hn] at hc ⊢
        rcases hn0 with h0 | h0
        · exact absurd h0 hc
        · exact hu _ (List.mem_append_left _ h0)
      · rw [hn]; exact hs
      · exact hu _ (List.mem_append_right _ (List.mem_cons_of_mem _ (List.mem_append_left _ hn)))

set_option synthInstance.maxSize 2048 in
set_option synthInstance.maxHeartbeats 400000 in
/-- Two nodes, one without tags; one with the tags of the other in another order: identifiers differ, tags do not. -/
example : (({} : World).run [.node 7 [("highway", "crossing"), ("name", "A")], .node 8 [], .node 9 [("name", "A")], .vertex 9,
    .vertex 7, .vertex 8]).map (fun w => (w.graph.read .nodes 7, w.graph.read .nodes 8, w.graph.nodes)) =
    .ok (.ok [("highway", "crossing"), ("name", "A")], .ok [], [(9, [0]), (7, [1, 0])]) := by decide +kernel

/-! ### Roads -/

/-- All edges of a way bring the same tags along. -/
def Consistent (W : Nat → List Pair) (ops : List Op) : Prop := ∀ i ts, .edge i ts ∈ ops → ts = W i

/-- What is true of tags and roads at any time. -/
structure Sound (W : Nat → List Pair) (t : Told) : Prop where
  pre : ∀ r ∈ t.roads, ∃ rest, t.ways r.id = W r.id ++ rest
  has : ∀ r ∈ t.roads, ∀ p ∈ r.parts, ∀ x ∈ W p, x ∈ t.ways r.id
  any : ∀ i, t.ways i = [] ∨ ∃ rest, t.ways i = W i ++ rest

theorem mem_rest {l : List Road} {a b : Nat} {x r : Road} (h : r ∈ (l.eraseIdx a).eraseIdx b ++ [x]) : r ∈ l ∨ r = x := by
  rw [List.mem_append, List.mem_singleton] at h
  rcases h with h | h
  · exact .inl (List.mem_of_mem_eraseIdx (List.mem_of_mem_eraseIdx h))
  · exact .inr h

theorem sound_step {W : Nat → List Pair} {t : Told} (h : Sound W t) (op : Op) (hc : ∀ i ts, op = .edge i ts → ts = W i) :
    Sound W (t.step op) := by
  cases op with
  | node i ts => exact ⟨h.pre, h.has, h.any⟩
  | vertex i => exact ⟨h.pre, h.has, h.any⟩
  | edge i ts =>
    have ht : ts = W i := hc i ts rfl
    subst ht
    have hi : ∃ rest, first t.ways i (W i) i = W i ++ rest := by
      simp only [first]
      split
      · exact ⟨[], by simp [at_]⟩
      · next hn => exact (h.any i).resolve_left hn
    have hk : ∀ k, k ≠ i → first t.ways i (W i) k = t.ways k := by
      intro k hk
      simp only [first]
      split
      · simp [at_, hk]
      · rfl
    refine ⟨fun r hr => ?_, fun r hr p hp x hx => ?_, fun k => ?_⟩
    · show ∃ rest, first t.ways i (W i) r.id = W r.id ++ rest
      by_cases hri : r.id = i
      · rw [hri]; exact hi
      · rw [hk _ hri]
        rcases List.mem_append.1 hr with hr | hr
        · exact h.pre r hr
        · rw [List.mem_singleton] at hr
          subst hr
          exact absurd rfl hri
    · show x ∈ first t.ways i (W i) r.id
      rcases List.mem_append.1 hr with hr | hr
      · have := h.has r hr p hp x hx
        by_cases hri : r.id = i
        · rw [hri] at this ⊢
          simp only [first]
          rw [if_neg (by intro h0; rw [h0] at this; simp at this)]
          exact this
        · rw [hk _ hri]; exact this
      · rw [List.mem_singleton] at hr
        subst hr
        rw [List.mem_singleton] at hp
        subst hp
        obtain ⟨rest, hr⟩ := hi
        rw [hr]
        exact List.mem_append_left _ hx
    · show first t.ways i (W i) k = [] ∨ _
      by_cases hki : k = i
      · rw [hki]; exact .inr hi
      · show _ ∨ ∃ rest, first t.ways i (W i) k = _
        rw [hk _ hki]; exact h.any k
  | merge c a b =>
    simp only [Told.step]
    cases ha : t.roads[a]? with
    | none => exact h
    | some r =>
      cases hb : t.roads[b]? with
      | none => exact h
      | some s =>
        simp only
        split
        · have hr : r ∈ t.roads := List.mem_of_getElem? ha
          have hs : s ∈ t.roads := List.mem_of_getElem? hb
          have hu : ∀ k, k ≠ r.id → union t.ways r.id s.id k = t.ways k := fun k hk => by simp [union, at_, hk]
          have hur : union t.ways r.id s.id r.id = t.ways r.id ++ (t.ways s.id).filter (fun t' => decide (t' ∉ t.ways r.id)) := by
            simp [union, at_]
          have hm : ∀ k x, x ∈ t.ways k → x ∈ union t.ways r.id s.id k := by
            intro k x hx
            by_cases hk : k = r.id
            · rw [hk] at hx ⊢; rw [hur]; exact List.mem_append_left _ hx
            · rw [hu k hk]; exact hx
          have hpre : ∀ k, (∃ rest, t.ways k = W k ++ rest) → ∃ rest, union t.ways r.id s.id k = W k ++ rest := by
            rintro k ⟨rest, hk⟩
            by_cases hkr : k = r.id
            · rw [hkr] at hk ⊢; rw [hur, hk]; exact ⟨_, List.append_assoc _ _ _⟩
            · rw [hu k hkr]; exact ⟨rest, hk⟩
          refine ⟨fun q hq => ?_, fun q hq p hp x hx => ?_, fun k => ?_⟩
          · rcases mem_rest hq with hq | hq
            · exact hpre _ (h.pre q hq)
            · subst hq; exact hpre _ (h.pre r hr)
          · rcases mem_rest hq with hq | hq
            · exact hm _ _ (h.has q hq p hp x hx)
            · subst hq
              rcases List.mem_append.1 hp with hp | hp
              · exact hm _ _ (h.has r hr p hp x hx)
              · have := h.has s hs p hp x hx
                show x ∈ union t.ways r.id s.id r.id
                rw [hur, List.mem_append, List.mem_filter]
                by_cases hx' : x ∈ t.ways r.id
                · exact .inl hx'
                · exact .inr ⟨this, by simp [hx']⟩
          · by_cases hkr : k = r.id
            · rw [hkr]; exact .inr (hpre _ (h.pre r hr))
            · show union t.ways r.id s.id k = [] ∨ ∃ rest, union t.ways r.id s.id k = _
              rw [hu k hkr]; exact h.any k
        · exact h

theorem sound_run {W : Nat → List Pair} (ops : List Op) : ∀ {t : Told}, Sound W t → Consistent W ops → Sound W (t.run ops) := by
  induction ops with
  | nil => intro t h _; exact h
  | cons op ops ih =>
    intro t h hc
    exact ih (sound_step h op (fun i ts he => hc i ts (he ▸ List.mem_cons_self))) (fun i ts hm => hc i ts (List.mem_cons_of_mem _ hm))

theorem sound_empty (W : Nat → List Pair) : Sound W {} := ⟨fun r hr => by simp at hr, fun r hr => by simp at hr, fun i => .inl rfl⟩

/-- **C112.**  If all edges of a way bring the same tags along, then every road of the network, however it was merged, has first the
tags of the way it is named after, and among its tags are those of every way it consists of. -/
theorem road_has (ops : List Op) (W : Nat → List Pair) (hc : Consistent W ops) {w : World} (h : ({} : World).run ops = .ok w) :
    ∀ r ∈ w.roads, ∃ rest, w.graph.read .edges r.id = .ok (W r.id ++ rest) ∧ ∀ p ∈ r.parts, ∀ x ∈ W p, x ∈ W r.id ++ rest := by
  obtain ⟨w', h1, h2, h3⟩ := tags_exact ops
  rw [h] at h1
  cases Outcome.ok.inj h1
  have hs := sound_run ops (sound_empty W) hc
  intro r hr
  rw [h2] at hr
  obtain ⟨rest, hp⟩ := hs.pre r hr
  refine ⟨rest, by rw [(h3 r.id).2.2, hp], fun p hp' x hx => ?_⟩
  rw [← hp]
  exact hs.has r hr p hp' x hx

/-- Tags do not change. -/
structure Plain (W : Nat → List Pair) (t : Told) : Prop where
  own : ∀ r ∈ t.roads, t.ways r.id = W r.id ∧ ∀ p ∈ r.parts, p = r.id
  any : ∀ i, t.ways i = [] ∨ t.ways i = W i

theorem union_self (f : Nat → List Pair) (i : Nat) : union f i i = f := by
  funext k
  simp only [union, at_]
  split
  · next h =>
    subst h
    have : (f k).filter (fun t => decide (t ∉ f k)) = [] := by
      rw [List.filter_eq_nil_iff]
      intro t ht
      simp [ht]
    rw [this, List.append_nil]
  · rfl

theorem plain_step {W : Nat → List Pair} {t : Told} (h : Plain W t) (op : Op) (hc : ∀ i ts, op = .edge i ts → ts = W i)
    (hm : ∀ c a b, op = .merge c a b → c = false) : Plain W (t.step op) := by
  cases op with
  | node i ts => exact ⟨h.own, h.any⟩
  | vertex i => exact ⟨h.own, h.any⟩
  | edge i ts =>
    have ht : ts = W i := hc i ts rfl
    subst ht
    have hi : first t.ways i (W i) i = W i := by
      simp only [first]
      split
      · simp [at_]
      · next hn => exact (h.any i).resolve_left hn
    have hk : ∀ k, k ≠ i → first t.ways i (W i) k = t.ways k := by
      intro k hk
      simp only [first]
      split
      · simp [at_, hk]
      · rfl
    refine ⟨fun r hr => ?_, fun k => ?_⟩
    · show first t.ways i (W i) r.id = W r.id ∧ _
      rcases List.mem_append.1 hr with hr | hr
      · refine ⟨?_, (h.own r hr).2⟩
        by_cases hri : r.id = i
        · rw [hri]; exact hi
        · rw [hk _ hri]; exact (h.own r hr).1
      · rw [List.mem_singleton] at hr
        subst hr
        exact ⟨hi, fun p hp => by simpa using hp⟩
    · show first t.ways i (W i) k = [] ∨ first t.ways i (W i) k = W k
      by_cases hki : k = i
      · rw [hki]; exact .inr hi
      · rw [hk _ hki]; exact h.any k
  | merge c a b =>
    have hcf := hm c a b rfl
    subst hcf
    simp only [Told.step]
    cases ha : t.roads[a]? with
    | none => exact h
    | some r =>
      cases hb : t.roads[b]? with
      | none => exact h
      | some s =>
        simp only
        split
        · next hj =>
          have hid : r.id = s.id := by simpa using hj.2
          rw [← hid, union_self]
          have hr : r ∈ t.roads := List.mem_of_getElem? ha
          have hs : s ∈ t.roads := List.mem_of_getElem? hb
          refine ⟨fun q hq => ?_, h.any⟩
          rcases mem_rest hq with hq | hq
          · exact h.own q hq
          · subst hq
            refine ⟨(h.own r hr).1, fun p hp => ?_⟩
            rcases List.mem_append.1 hp with hp | hp
            · exact (h.own r hr).2 p hp
            · exact ((h.own s hs).2 p hp).trans hid.symm
        · exact h

theorem plain_run {W : Nat → List Pair} (ops : List Op) : ∀ {t : Told}, Plain W t → Consistent W ops →
    (∀ c a b, .merge c a b ∈ ops → c = false) → Plain W (t.run ops) := by
  induction ops with
  | nil => intro t h _ _; exact h
  | cons op ops ih =>
    intro t h hc hm
    exact ih (plain_step h op (fun i ts he => hc i ts (he ▸ List.mem_cons_self)) (fun c a b he => hm c a b (he ▸ List.mem_cons_self)))
      (fun i ts h' => hc i ts (List.mem_cons_of_mem _ h')) (fun c a b h' => hm c a b (List.mem_cons_of_mem _ h'))

/-- **C112, in part.**  Full statement: the tags of a road are those of the ways it consists of, and no others.  That is so if edges
are merged only within a way (the option to simplify the whole network is off): every road has exactly the tags of its way.  Missing:
merges of edges of different ways, for which the statement is false (`spread_fails`), and ways in several versions
(`version_fails`). -/
theorem road_tags_partial (ops : List Op) (W : Nat → List Pair) (hc : Consistent W ops) (hm : ∀ c a b, .merge c a b ∈ ops → c = false)
    {w : World} (h : ({} : World).run ops = .ok w) :
    ∀ r ∈ w.roads, w.graph.read .edges r.id = .ok (W r.id) ∧ ∀ p ∈ r.parts, p = r.id := by
  obtain ⟨w', h1, h2, h3⟩ := tags_exact ops
  rw [h] at h1
  cases Outcome.ok.inj h1
  have hs := plain_run ops (W := W) (t := {}) ⟨fun r hr => by simp at hr, fun i => .inl rfl⟩ hc hm
  intro r hr
  rw [h2] at hr
  exact ⟨by rw [(h3 r.id).2.2, (hs.own r hr).1], (hs.own r hr).2⟩

theorem ways_only (ops : List Op) : ∀ (t : Told) (i : Nat) (x : Pair), x ∈ (t.run ops).ways i →
    (∃ j, x ∈ t.ways j) ∨ ∃ j ts, .edge j ts ∈ ops ∧ x ∈ ts := by
  induction ops with
  | nil => intro t i x h; exact .inl ⟨i, h⟩
  | cons op ops ih =>
    intro t i x h
    rcases ih (t.step op) i x h with ⟨j, hj⟩ | ⟨j, ts, h1, h2⟩
    · cases op with
      | node k ts => exact .inl ⟨j, hj⟩
      | vertex k => exact .inl ⟨j, hj⟩
      | edge k ts =>
        have hj : x ∈ first t.ways k ts j := hj
        simp only [first] at hj
        split at hj
        · simp only [at_] at hj
          split at hj
          · exact .inr ⟨k, ts, List.mem_cons_self, hj⟩
          · exact .inl ⟨j, hj⟩
        · exact .inl ⟨j, hj⟩
      | merge c a b =>
        simp only [Told.step] at hj
        split at hj
        · next r s _ _ =>
          split at hj
          · have hj : x ∈ union t.ways r.id s.id j := hj
            simp only [union, at_] at hj
            split at hj
            · rcases List.mem_append.1 hj with hj | hj
              · exact .inl ⟨_, hj⟩
              · exact .inl ⟨_, List.mem_of_mem_filter hj⟩
            · exact .inl ⟨j, hj⟩
          · exact .inl ⟨j, hj⟩
        · exact .inl ⟨j, hj⟩
    · exact .inr ⟨j, ts, List.mem_cons_of_mem _ h1, h2⟩

/-- **C112.**  No tag of a road comes from nowhere: some edge brought it along, key and value together. -/
theorem road_only (ops : List Op) {w : World} (h : ({} : World).run ops = .ok w) (i : Nat) :
    ∃ l, w.graph.read .edges i = .ok l ∧ ∀ x ∈ l, ∃ j ts, .edge j ts ∈ ops ∧ x ∈ ts := by
  obtain ⟨w', h1, _, h3⟩ := tags_exact ops
  rw [h] at h1
  cases Outcome.ok.inj h1
  refine ⟨_, (h3 i).2.2, fun x hx => ?_⟩
  rcases ways_only ops {} i x hx with ⟨j, hj⟩ | h
  · simp at hj
  · exact h

/-- Merges within a way, with tags of which one occurs in both ways; and a merge of two ways that is refused. -/
example : (({} : World).run [.edge 1 [("highway", "primary"), ("lanes", "2")], .edge 2 [("lanes", "2")],
    .edge 1 [("highway", "primary"), ("lanes", "2")], .merge false 0 1, .merge false 2 0]).map
    (fun w => (w.roads, w.graph.read .edges 1, w.graph.read .edges 2)) =
    .ok ([⟨2, [2]⟩, ⟨1, [1, 1]⟩], .ok [("highway", "primary"), ("lanes", "2")], .ok [("lanes", "2")]) := by decide +kernel

/-- A merged road has the tags of both ways. -/
example : (({} : World).run [.edge 1 [("highway", "primary"), ("lanes", "2")], .edge 2 [("lanes", "2"), ("maxspeed", "50")],
    .merge true 0 1]).map (fun w => (w.roads, w.graph.read .edges 1, w.graph.read .edges 2)) =
    .ok ([⟨1, [1, 2]⟩], .ok [("highway", "primary"), ("lanes", "2"), ("maxspeed", "50")],
      .ok [("lanes", "2"), ("maxspeed", "50")]) := by decide +kernel

/-- **C112 is false of the program.**  Tags belong to the identifier of the way.  When one edge of way 1 is merged with an edge of way
2, then another edge of way 1, which was merged with nothing, has the tag of way 2 as well. -/
theorem spread_fails : ∃ (ops : List Op) (w : World) (r : Road) (l : List Pair), ({} : World).run ops = .ok w ∧ r ∈ w.roads ∧ r.parts = [1] ∧
    (∀ ts, .edge 1 ts ∈ ops → ts = [("highway", "primary")]) ∧ w.graph.read .edges r.id = .ok l ∧ ("maxspeed", "30") ∈ l := by
  refine ⟨[.edge 1 [("highway", "primary")], .edge 1 [("highway", "primary")], .edge 2 [("maxspeed", "30")], .merge true 1 2],
    ⟨{}, ⟨⟨[("highway", 0), ("maxspeed", 1)], [(0, "highway"), (1, "maxspeed")], [("primary", 0), ("30", 1)], [(0, "primary"), (1, "30")],
      [((0, 0), 0), ((1, 1), 1)], [(0, (0, 0)), (1, (1, 1))], false⟩, [], [(1, [0, 1]), (2, [1])]⟩, [⟨1, [1]⟩, ⟨1, [1, 2]⟩]⟩,
    ⟨1, [1]⟩, [("highway", "primary"), ("maxspeed", "30")], by decide +kernel, by simp, rfl, ?_, by decide +kernel, by simp⟩
  intro ts h
  simp at h
  exact h

/-- **C112 is false of the program.**  If a way occurs in two versions, then edges of the second have the tags of the first. -/
theorem version_fails : (({} : World).run [.edge 1 [("maxspeed", "30")], .edge 1 [("maxspeed", "50")]]).map
    (fun w => (w.roads.length, w.graph.read .edges 1)) = .ok (2, .ok [("maxspeed", "30")]) := by decide +kernel

/-! ### The compressed network -/

theorem convert_spec {g : Box} {tg : Which → Nat → List Pair} (hg : Holds g tg) (calls : List (Which × Nat)) :
    ∀ {b : Box} {tb : Which → Nat → List Pair}, Holds b tb → b.st.finalized = false → (∀ w i, tb w i = [] ∨ tb w i = tg w i) →
    ∃ b' tb', convert g b calls = .ok b' ∧ Holds b' tb' ∧ (∀ w i, (w, i) ∈ calls → tb' w i = tg w i) ∧
      (∀ w i, (w, i) ∉ calls → tb' w i = tb w i) := by
  induction calls with
  | nil => intro b tb hb _ _; exact ⟨b, tb, rfl, hb, by simp, fun _ _ _ => rfl⟩
  | cons c cs ih =>
    intro b tb hb hf ht
    obtain ⟨b1, h1, h2, h3⟩ := clone_spec hb hf hg c.1 c.2
    have ht1 : give tb c.1 c.2 (tg c.1 c.2) c.1 c.2 = tg c.1 c.2 := by
      simp only [give, true_and]
      split
      · rfl
      · next hn => exact (ht _ _).resolve_left hn
    have hto : ∀ w i, (w, i) ≠ c → give tb c.1 c.2 (tg c.1 c.2) w i = tb w i := by
      intro w i hne
      simp only [give]
      rw [if_neg]
      rintro ⟨e1, e2, _⟩
      exact hne (Prod.ext e1 e2)
    have ht2 : ∀ w i, give tb c.1 c.2 (tg c.1 c.2) w i = [] ∨ give tb c.1 c.2 (tg c.1 c.2) w i = tg w i := by
      intro w i
      by_cases he : (w, i) = c
      · subst he
        exact .inr ht1
      · rw [hto w i he]; exact ht w i
    obtain ⟨b2, tb2, g1, g2, g3, g4⟩ := ih h2 h3 ht2
    refine ⟨b2, tb2, by rw [convert, h1, Outcome.bind_ok, g1], g2, fun w i hm => ?_, fun w i hm => ?_⟩
    · by_cases hm' : (w, i) ∈ cs
      · exact g3 w i hm'
      · have he : (w, i) = c := (List.mem_cons.1 hm).resolve_right hm'
        rw [g4 w i hm']
        subst he
        exact ht1
    · rw [List.mem_cons, not_or] at hm
      rw [g4 w i hm.2, hto w i hm.1]

/-- **C112.**  Whatever was read and merged: the tags of the compressed network are those of the imported one, for every vertex and
every edge handed over, in any order and also if some are handed over again after a failed attempt; other elements have none.  They
can be read after the storage is finalized. -/
theorem compress_exact (ops : List Op) {w : World} (h : ({} : World).run ops = .ok w) (calls : List (Which × Nat)) :
    ∃ b, compress w.graph calls = .ok b ∧ ∀ k i, b.read k i = if (k, i) ∈ calls then w.graph.read k i else .ok [] := by
  obtain ⟨w', h1, h2⟩ := fits_run ops fits_empty
  rw [h] at h1
  cases Outcome.ok.inj h1
  obtain ⟨g, hg, _, _⟩ := h2.graph
  obtain ⟨b, tb, h3, h4, h5, h6⟩ := convert_spec hg calls holds_empty rfl (fun _ _ => .inl rfl)
  refine ⟨b.finish, by rw [compress, h3, Outcome.map_ok], fun k i => ?_⟩
  rw [(finish_spec h4).read, hg.read]
  split
  · next hm => rw [h5 k i hm]
  · next hm => rw [h6 k i hm]

/-- **C112, in part**, from the files to the prepared network: see `road_tags_partial`. -/
theorem prepared_partial (ops : List Op) (W : Nat → List Pair) (hc : Consistent W ops) (hm : ∀ c a b, .merge c a b ∈ ops → c = false)
    {w : World} (h : ({} : World).run ops = .ok w) (calls : List (Which × Nat)) (hcalls : ∀ r ∈ w.roads, (Which.edges, r.id) ∈ calls) :
    ∃ b, compress w.graph calls = .ok b ∧ ∀ r ∈ w.roads, b.read .edges r.id = .ok (W r.id) := by
  obtain ⟨b, h1, h2⟩ := compress_exact ops h calls
  refine ⟨b, h1, fun r hr => ?_⟩
  rw [h2, if_pos (hcalls r hr)]
  exact (road_tags_partial ops W hc hm h r hr).1

set_option synthInstance.maxSize 2048 in
set_option synthInstance.maxHeartbeats 400000 in
/-- Nodes and edges with tags, of which one is handed over twice and one not at all. -/
example : ((({} : World).run [.node 5 [("a", "b")], .node 6 [("b", "a")], .vertex 6, .vertex 5, .edge 1 [("b", "a"), ("a", "b")]]).bind
    (fun w => compress w.graph [(.edges, 1), (.nodes, 6), (.edges, 1)])).map
    (fun b => (b.read .nodes 5, b.read .nodes 6, b.read .edges 1, b.st.finalized)) =
    .ok (.ok [], .ok [("b", "a")], .ok [("b", "a"), ("a", "b")], true) := by decide +kernel

/-- After finalizing, no tags can be given any more. -/
theorem finished_refuses (b : Box) (k : Which) (i : Nat) (t : Pair) (ts : List Pair) : b.finish.set k i (t :: ts) = .throws := by
  simp [Box.set, Box.finish, identifyAll, identify, Tags.id, Tags.finalize]

example : (({} : Box).set .nodes 1 [("a", "b")]).bind (fun b => b.finish.set .nodes 2 [("a", "b")]) = .throws := by decide +kernel

/-- **C112 is false of the program.**  Copying known tags to an element of a finalized storage works, unless the mapped file is full:
then it cannot grow, because the maps that finalizing destroyed are looked up and not found. -/
theorem full_fails : (({} : Box).set .edges 1 [("a", "b")]).bind (fun b => (b.finish.copy .edges 2 [0] false).bind (·.read .edges 2)) =
      .ok [("a", "b")] ∧
    (({} : Box).set .edges 1 [("a", "b")]).bind (fun b => (b.finish.copy .edges 2 [0] true).bind (·.read .edges 2)) = .throws ∧
    (({} : Box).set .edges 1 [("a", "b")]).bind (fun b => (b.copy .edges 2 [0] true).bind (·.read .edges 2)) = .ok [("a", "b")] := by
  decide +kernel

end MM.TagFlow
