import Verif.Model.Prepare
import Verif.Props.Csr
import Verif.Props.NetImport
import Verif.Props.Osm
import Mathlib.Data.Multiset.OrderedMonoid
import Mathlib.Algebra.BigOperators.Group.List.Lemmas

/-! # From files to a network (helper lemmas for C98) -/

set_option autoImplicit false
set_option linter.unusedSectionVars false

namespace MM.Prepare

open MM.Net MM.Line

variable {P : Type} [DecidableEq P]

/-! ### Segments -/

/-- A segment as a measure: the length of a line is the multiset of its segments. -/
def single (a b : P) : Multiset (P × P) := {(a, b)}

theorem lineLen_single (l : List P) : lineLen single l = (segs l : Multiset (P × P)) := by
  induction l with
  | nil => rfl
  | cons a l ih =>
    cases l with
    | nil => rfl
    | cons b l =>
      rw [lineLen, ih]
      show ({(a, b)} : Multiset (P × P)) + _ = ((a, b) :: segs (b :: l) : List _)
      rfl

/-- The segments of all edges. -/
def segments (es : List (NEdge P)) : Multiset (P × P) := (es.flatMap fun e => segs e.line : List (P × P))

theorem total_single (g : Net.Net P) : totalLen single g = segments g.edges := by
  unfold totalLen segments
  generalize g.edges = es
  induction es with
  | nil => rfl
  | cons e es ih =>
    rw [List.map_cons, List.sum_cons, ih, lineLen_single, List.flatMap_cons, Multiset.coe_add]

theorem mem_segments {es : List (NEdge P)} {x : P × P} : x ∈ segments es ↔ ∃ e ∈ es, x ∈ segs e.line := by
  simp [segments, List.mem_flatMap]

/-- Every line has two points. -/
def Long (es : List (NEdge P)) : Prop := ∀ e ∈ es, 2 ≤ e.line.length

/-! ### Import -/

theorem imported_edges (st : Osm.St P) {e : NEdge P} : e ∈ (imported st).edges ↔ ∃ k x, st.edges[k]? = some x ∧
    e = ⟨k, x.way, x.src, x.tgt, [x.line.1, x.line.2]⟩ := by
  simp only [imported, List.mem_map, Prod.exists]
  constructor
  · rintro ⟨x, k, h, rfl⟩
    exact ⟨k, x, List.mem_zipIdx_iff_getElem?.1 h, rfl⟩
  · rintro ⟨k, x, h, rfl⟩
    exact ⟨x, k, List.mem_zipIdx_iff_getElem?.2 h, rfl⟩

theorem zipIdx_map_snd {α : Type} (l : List α) : l.zipIdx.map Prod.snd = List.range l.length := by
  rw [List.zipIdx_map_snd, List.range_eq_range']

/-- Edges with lines between the points of their nodes. -/
def Drawn (st : Osm.St P) : Prop := ∀ e ∈ st.edges, ∃ a b, st.verts[e.src]? = some a ∧ st.verts[e.tgt]? = some b ∧ e.line = (a.2, b.2)

theorem imported_wf [Inhabited P] {st : Osm.St P} (h : Drawn st) : WF (fun v => (nodeOf st v).2) (imported st) := by
  have hpos : ∀ {v a}, st.verts[v]? = some a → nodeOf st v = a := by
    intro v a h; simp [nodeOf, List.getD_eq_getElem?_getD, h]
  have hlt : ∀ {v : Nat} {a}, st.verts[v]? = some a → v ∈ (imported st).verts := by
    intro v a h; exact List.mem_range.2 (List.getElem?_eq_some_iff.1 h).1
  refine ⟨List.nodup_range, ?_, ?_, ?_, ?_, ?_, ?_⟩
  · have : (imported st).edges.map NEdge.eid = List.range st.edges.length := by
      simp only [imported, List.map_map, Function.comp_def]
      exact zipIdx_map_snd _
    rw [this]; exact List.nodup_range
  all_goals
    intro e he
    obtain ⟨k, x, hk, rfl⟩ := (imported_edges st).1 he
    obtain ⟨a, b, ha, hb, hl⟩ := h x (List.mem_of_getElem? hk)
  · exact (List.getElem?_eq_some_iff.1 hk).1
  · exact hlt ha
  · exact hlt hb
  · simp [hl, hpos ha]
  · simp [hl, hpos hb]

theorem imported_segments (st : Osm.St P) : segments (imported st).edges = (st.edges.map Osm.Edge.line : List (P × P)) := by
  unfold segments
  congr 1
  simp only [imported, List.flatMap_map]
  have : ∀ (l : List (Osm.Edge P)) (n : Nat), ((l.zipIdx n).flatMap fun x => segs [x.1.line.1, x.1.line.2]) = l.map Osm.Edge.line := by
    intro l
    induction l with
    | nil => intro n; rfl
    | cons e l ih => intro n; rw [List.zipIdx_cons, List.flatMap_cons, ih]; rfl
  exact this _ _

theorem imported_long (st : Osm.St P) : Long (imported st).edges := by
  intro e he
  obtain ⟨k, x, _, rfl⟩ := (imported_edges st).1 he
  simp

/-! ### Steps -/

/-- What every step keeps: lines from node to node with two points at least, no new vertices. -/
structure Kept (pos : Nat → P) (g g' : Net.Net P) : Prop where
  wf : WF pos g'
  verts : g'.verts.Sublist g.verts
  long : Long g.edges → Long g'.edges
  segs : segments g'.edges ≤ segments g.edges

theorem Kept.rfl {pos : Nat → P} {g : Net.Net P} (h : WF pos g) : Kept pos g g := ⟨h, List.Sublist.refl _, id, le_refl _⟩

theorem Kept.trans {pos : Nat → P} {a b c : Net.Net P} (h : Kept pos a b) (h' : Kept pos b c) : Kept pos a c :=
  ⟨h'.wf, h'.verts.trans h.verts, h'.long ∘ h.long, h'.segs.trans h.segs⟩

theorem mergeLines_long {a b l : List P} (ha : 2 ≤ a.length) (h : mergeLines a b = .ok l) : 2 ≤ l.length := by
  unfold mergeLines at h
  split_ifs at h
  · cases h; exact ha
  · subst a; simp at ha
  · cases h; simp; omega

theorem mergeAll_long (ps : List (NEdge P × NEdge P)) : ∀ {g g' : Net.Net P}, Long g.edges → (∀ p ∈ ps, 2 ≤ p.1.line.length) →
    mergeAll g ps = .ok g' → Long g'.edges := by
  induction ps with
  | nil => intro g g' h _ he; cases he; exact h
  | cons p ps ih =>
    intro g g' h hp he
    rw [mergeAll, mergeOne] at he
    cases hl : mergeLines p.1.line p.2.line with
    | throws => rw [hl] at he; cases he
    | ub => rw [hl] at he; cases he
    | ok l =>
      rw [hl] at he
      refine ih ?_ (fun q hq => hp q (List.mem_cons_of_mem _ hq)) he
      intro e hm
      rcases List.mem_append.1 hm with hm | hm
      · exact h e (List.mem_of_mem_filter hm)
      · rw [List.mem_singleton.1 hm]
        exact mergeLines_long (hp p (by simp)) hl

theorem merges_mem {complete : Bool} {g : Net.Net P} {v : Nat} {p : NEdge P × NEdge P} (h : p ∈ merges complete g v) :
    p.1 ∈ g.edges ∧ p.2 ∈ g.edges := by
  have key : ∀ (l acc : List (NEdge P × NEdge P)), p ∈ l.foldl (addMerge complete) acc → p ∈ acc ∨ p ∈ l := by
    intro l
    induction l with
    | nil => intro acc h; exact .inl h
    | cons x l ih =>
      intro acc h
      rcases ih _ h with h | h
      · unfold addMerge at h
        split_ifs at h <;> simp at h ⊢ <;> tauto
      · exact .inr (List.mem_cons_of_mem _ h)
  rcases key _ _ h with h | h
  · cases h
  · rw [List.mem_flatMap] at h
    obtain ⟨i, hi, h⟩ := h
    rw [List.mem_map] at h
    obtain ⟨o, ho, rfl⟩ := h
    exact ⟨(mem_ins.1 hi).1, (mem_outs.1 ho).1⟩

theorem simplifyAll_long (complete : Bool) (vs : List Nat) : ∀ {g g' : Net.Net P}, Long g.edges → simplifyAll complete g vs = .ok g' →
    Long g'.edges := by
  induction vs with
  | nil => intro g g' h he; cases he; exact h
  | cons v vs ih =>
    intro g g' h he
    rw [simplifyAll] at he
    cases hs : simplifyVertex complete g v with
    | throws => rw [hs] at he; cases he
    | ub => rw [hs] at he; cases he
    | ok g1 =>
      rw [hs] at he
      refine ih ?_ he
      unfold simplifyVertex at hs
      split_ifs at hs
      · exact mergeAll_long _ h (fun p hp => h _ (merges_mem hp).1) hs
      · cases hs; exact h

theorem single_nonneg (a b : P) : 0 ≤ single a b := Multiset.zero_le _

theorem simplifyStep_kept (s : Steps) {pos : Nat → P} {g : Net.Net P} (h : WF pos g) :
    ∃ g', simplifyStep s g = .ok g' ∧ Kept pos g g' ∧ segments g'.edges = segments g.edges := by
  unfold simplifyStep
  split_ifs
  · exact ⟨g, rfl, .rfl h, rfl⟩
  · obtain ⟨g', h1, h2⟩ := simplify_keeps_geometry pos single single_nonneg (decide (s.simplify = .all)) g.verts h
    have := h2.total
    rw [total_single, total_single] at this
    exact ⟨g', h1, ⟨h2.wf, h2.verts, fun hl => simplifyAll_long _ _ hl h1, this.le⟩, this⟩

theorem absorb_long {v w : Nat} {g : Net.Net P} (h : Long g.edges) : Long (absorb v w g).edges := by
  have hin : ∀ (l : List (NEdge P)) (g : Net.Net P), Long g.edges → (∀ e ∈ l, 2 ≤ e.line.length) → Long (l.foldl (moveIn v w) g).edges := by
    intro l
    induction l with
    | nil => intro g h _; exact h
    | cons e l ih =>
      intro g h hl
      refine ih _ ?_ (fun x hx => hl x (List.mem_cons_of_mem _ hx))
      unfold moveIn
      split_ifs
      · intro x hx
        rcases List.mem_append.1 hx with hx | hx
        · exact h x (List.mem_of_mem_filter hx)
        · rw [List.mem_singleton.1 hx]; exact hl e (by simp)
      · exact h
  have hout : ∀ (l : List (NEdge P)) (g : Net.Net P), Long g.edges → (∀ e ∈ l, 2 ≤ e.line.length) → Long (l.foldl (moveOut v w) g).edges := by
    intro l
    induction l with
    | nil => intro g h _; exact h
    | cons e l ih =>
      intro g h hl
      refine ih _ ?_ (fun x hx => hl x (List.mem_cons_of_mem _ hx))
      unfold moveOut
      split_ifs
      · intro x hx
        rcases List.mem_append.1 hx with hx | hx
        · exact h x (List.mem_of_mem_filter hx)
        · rw [List.mem_singleton.1 hx]; exact hl e (by simp)
      · exact h
  have h1 := hin (g.ins v) g h (fun e he => h e (mem_ins.1 he).1)
  exact hout _ _ h1 (fun e he => h1 e (mem_outs.1 he).1)

theorem dupLoop_long (pos : Nat → P) (simplify complete : Bool) (vs : List Nat) : ∀ {st st' : DupSt P}, Long st.net.edges →
    dupLoop pos simplify complete st vs = .ok st' → Long st'.net.edges := by
  induction vs with
  | nil => intro st st' h he; cases he; exact h
  | cons v vs ih =>
    intro st st' h he
    rw [dupLoop] at he
    split_ifs at he
    · cases hd : dupVertex pos simplify complete st v with
      | throws => rw [hd] at he; cases he
      | ub => rw [hd] at he; cases he
      | ok st1 =>
        rw [hd] at he
        refine ih ?_ he
        unfold dupVertex at hd
        split at hd
        · unfold afterAbsorb at hd
          have ha : ∀ w, Long (absorb v w st.net).edges := fun w => absorb_long h
          split_ifs at hd
          · rename_i w _ _
            cases hm : mergeAll (absorb v w st.net) (merges complete (absorb v w st.net) w) with
            | throws => simp only at hd; rw [hm] at hd; cases hd
            | ub => simp only at hd; rw [hm] at hd; cases hd
            | ok g1 =>
              simp only at hd
              rw [hm] at hd
              cases hd
              exact mergeAll_long _ (ha w) (fun p hp => ha w _ (merges_mem hp).1) hm
          · cases hd; exact ha _
        · cases hd; exact h
    · exact ih h he

theorem nodesStep_kept (s : Steps) {pos : Nat → P} {g : Net.Net P} (h : WF pos g) :
    ∃ g', nodesStep s pos g = .ok g' ∧ Kept pos g g' ∧ segments g'.edges = segments g.edges := by
  unfold nodesStep
  split_ifs
  · obtain ⟨g', h1, h2, h3, h4⟩ := duplicate_nodes_length pos single (decide (s.simplify ≠ .none)) (decide (s.simplify = .all)) h
    rw [total_single, total_single] at h3
    refine ⟨g', h1, ⟨h2, h4, fun hl => ?_, h3.le⟩, h3⟩
    unfold removeDuplicateNodes at h1
    cases hd : dupLoop pos (decide (s.simplify ≠ .none)) (decide (s.simplify = .all)) ⟨g, []⟩ g.verts with
    | throws => rw [hd] at h1; cases h1
    | ub => rw [hd] at h1; cases h1
    | ok st =>
      rw [hd] at h1
      cases h1
      exact dupLoop_long _ _ _ _ (st := ⟨g, []⟩) hl hd
  · exact ⟨g, rfl, .rfl h, rfl⟩

theorem edgesStep_kept (s : Steps) {g g' : Net.Net P} (he : edgesStep s g = .ok g') : g' = g := by
  unfold edgesStep at he
  split_ifs at he
  · by_cases hp : g.edges.Pairwise (fun a b => a.name ≠ b.name ∨ a.line ≠ b.line)
    · rw [duplicate_edges_partial g hp] at he
      exact (Outcome.ok.inj he).symm
    · rw [duplicate_edges_fails g hp] at he
      cases he
  · exact (Outcome.ok.inj he).symm

/-! ### Components -/

theorem run_bounded {V : Type} [DecidableEq V] {push : V → List V → List V} {edges : V → List V} {v0 : List V} {start : V} {all : List V}
    (hpush : ∀ t q, (push t q).Perm (t :: q)) (hall : ∀ x, Relation.ReflTransGen (Traversal.Adj edges v0) start x → x ∈ all) :
    ∀ (n : Nat) (s : Traversal.State V), Traversal.Inv edges v0 start s → all.length ≤ n + s.finished.length →
      ∃ t, Traversal.run push edges n s = some t ∧ Traversal.Inv edges v0 start t ∧ t.frontier = [] := by
  intro n
  induction n with
  | zero =>
    intro s h hn
    have hlen : (s.finished ++ s.frontier).length ≤ all.length := by
      rw [h.perm.length_eq]
      exact (List.subperm_of_subset h.nodup (fun x hx => hall x (h.sound x hx))).length_le
    have hfr : s.frontier = [] := by
      rw [List.length_append] at hlen
      exact List.eq_nil_of_length_eq_zero (by omega)
    exact ⟨s, by simp [Traversal.run, hfr], h, hfr⟩
  | succ n ih =>
    intro s h hn
    unfold Traversal.run
    cases hs : Traversal.step push edges s with
    | none =>
      refine ⟨s, rfl, h, ?_⟩
      unfold Traversal.step at hs
      split at hs
      · assumption
      · cases hs
    | some t =>
      exact ih t (Traversal.inv_step hpush h hs) (by rw [Traversal.step_finished hs]; omega)

theorem bfs_bounded {V : Type} [DecidableEq V] {adj : V → List V} {all : List V} (hall : ∀ a ∈ all, ∀ b ∈ adj a, b ∈ all)
    {visited : List V} {start : V} (hs : start ∉ visited) (hst : start ∈ all) :
    ∃ s, Traversal.bfs adj visited start all.length = some s ∧ s.discovered.Nodup ∧
      (∀ x, x ∈ s.discovered ↔ Relation.ReflTransGen (fun a b => b ∈ adj a ∧ b ∉ visited) start x) ∧
      (∀ x, x ∈ s.visited ↔ x ∈ s.discovered ∨ x ∈ visited) := by
  obtain ⟨s, hr, hi, hf⟩ := run_bounded (push := fun t q => q ++ [t]) (edges := adj) (v0 := visited) (start := start) (all := all)
    (fun t q => List.perm_append_comm (l₁ := q) (l₂ := [t]))
    (fun x hx => by
      induction hx with
      | refl => exact hst
      | tail _ h ih => exact hall _ ih _ h.1)
    all.length _ (Traversal.inv_init hs) (Nat.le_add_right _ _)
  exact ⟨s, hr, hi.nodup, fun x => ⟨hi.sound x, Traversal.complete hi hf x⟩, hi.vis⟩

theorem components_some {V : Type} [DecidableEq V] {adj : V → List V} {all : List V} (hall : ∀ a ∈ all, ∀ b ∈ adj a, b ∈ all)
    (hne : all ≠ []) : components adj all.length all [] ≠ [] := by
  obtain ⟨v, vs, rfl⟩ := List.exists_cons_of_ne_nil hne
  obtain ⟨s, hs, _⟩ := bfs_bounded hall (visited := []) (start := v) (by simp) (by simp)
  rw [components, if_neg (by simp), hs]
  simp

theorem components_bounded {V : Type} [DecidableEq V] {adj : V → List V} {all : List V} (hall : ∀ a ∈ all, ∀ b ∈ adj a, b ∈ all)
    (hsym : ∀ a ∈ all, ∀ b, Reach adj a b → Reach adj b a) : ∀ (vs visited : List V), (∀ v ∈ vs, v ∈ all) → (∀ x ∈ visited, x ∈ all) →
      (∀ x ∈ visited, ∀ y, Reach adj x y → y ∈ visited) →
      (∀ c ∈ components adj all.length vs visited, c.Nodup ∧ ∃ v ∈ vs, ∀ x, x ∈ c ↔ Reach adj v x) ∧
      (∀ w ∈ vs, w ∉ visited → ∃ c ∈ components adj all.length vs visited, ∀ x, x ∈ c ↔ Reach adj w x) := by
  have hreach : ∀ a ∈ all, ∀ b, Reach adj a b → b ∈ all := by
    intro a ha b h
    induction h with
    | refl => exact ha
    | tail _ h ih => exact hall _ ih _ h
  intro vs
  induction vs with
  | nil => intro visited _ _ _; simp [components]
  | cons v vs ih =>
    intro visited hvs hva hc
    have hvs' : ∀ v ∈ vs, v ∈ all := fun x hx => hvs x (List.mem_cons_of_mem _ hx)
    rw [components]
    split_ifs with hv
    · obtain ⟨h1, h2⟩ := ih visited hvs' hva hc
      refine ⟨fun c hcc => ?_, fun w hw hwv => ?_⟩
      · obtain ⟨hn, v', hv', he⟩ := h1 c hcc
        exact ⟨hn, v', List.mem_cons_of_mem _ hv', he⟩
      · rcases List.mem_cons.1 hw with rfl | hw
        · exact absurd hv hwv
        · exact h2 w hw hwv
    · have hvall := hvs v (by simp)
      obtain ⟨s, hs, hnd, hd, hvis⟩ := bfs_bounded hall hv hvall
      rw [hs]
      have hd' : ∀ x, x ∈ s.discovered ↔ Reach adj v x := by
        intro x
        rw [hd]
        constructor
        · intro h
          exact Relation.ReflTransGen.mono (fun a b hab => hab.1) _ _ h
        · intro h
          induction h with
          | refl => exact .refl
          | @tail b c hb hbc ihb =>
            refine ihb.tail ⟨hbc, fun hcv => hv ?_⟩
            exact hc c hcv v (hsym v hvall c (Relation.ReflTransGen.tail hb hbc))
      have hc' : ∀ x ∈ s.visited, ∀ y, Reach adj x y → y ∈ s.visited := by
        intro x hx y hxy
        rcases (hvis x).1 hx with hx | hx
        · exact (hvis y).2 (.inl ((hd' y).2 (((hd' x).1 hx).trans hxy)))
        · exact (hvis y).2 (.inr (hc x hx y hxy))
      have hva' : ∀ x ∈ s.visited, x ∈ all := by
        intro x hx
        rcases (hvis x).1 hx with hx | hx
        · exact hreach v hvall x ((hd' x).1 hx)
        · exact hva x hx
      obtain ⟨h1, h2⟩ := ih s.visited hvs' hva' hc'
      refine ⟨fun c hcc => ?_, fun w hw hwv => ?_⟩
      · rcases List.mem_cons.1 hcc with rfl | hcc
        · exact ⟨hnd, v, List.mem_cons_self, hd'⟩
        · obtain ⟨hn, v', hv', he⟩ := h1 c hcc
          exact ⟨hn, v', List.mem_cons_of_mem _ hv', he⟩
      · by_cases hws : w ∈ s.visited
        · rcases (hvis w).1 hws with hwd | hwd
          · refine ⟨s.discovered, List.mem_cons_self, fun x => (hd' x).trans ⟨fun h => ?_, fun h => ?_⟩⟩
            · exact (hsym v hvall w ((hd' w).1 hwd)).trans h
            · exact ((hd' w).1 hwd).trans h
          · exact absurd hwd hwv
        · rcases List.mem_cons.1 hw with rfl | hw
          · exact absurd ((hvis w).2 (.inl ((hd' w).2 .refl))) hws
          · obtain ⟨c, hcc, he⟩ := h2 w hw hws
            exact ⟨c, List.mem_cons_of_mem _ hcc, he⟩

/-- Vertices at the ends of the out edges. -/
def nexts (g : Net.Net P) (v : Nat) : List Nat := (g.outs v).map NEdge.tgt

theorem nexts_closed {pos : Nat → P} {g : Net.Net P} (h : WF pos g) : ∀ a ∈ g.verts, ∀ b ∈ nexts g a, b ∈ g.verts := by
  intro a _ b hb
  obtain ⟨e, he, rfl⟩ := List.mem_map.1 hb
  exact h.tgt e (mem_outs.1 he).1

theorem segments_sublist {es es' : List (NEdge P)} (h : es.Sublist es') : segments es ≤ segments es' :=
  Multiset.coe_le.2 (h.flatMap _).subperm

theorem unconnectedStep_kept (s : Steps) {pos : Nat → P} {g : Net.Net P} (h : WF pos g) :
    (unconnectedStep s g = .ub ∧ s.unconnected = true ∧ g.verts = []) ∨
    (∃ g', unconnectedStep s g = .ok g' ∧ Kept pos g g' ∧ (s.unconnected = false → g' = g) ∧
      ¬ (s.unconnected = true ∧ g.verts = [])) := by
  unfold unconnectedStep
  split_ifs with hu
  · unfold largestComponent removeUnconnected
    by_cases hne : g.verts = []
    · left
      rw [hne]
      exact ⟨rfl, hu, rfl⟩
    · right
      have hc := components_some (nexts_closed h) hne
      cases hl : largest (components (fun v => (g.outs v).map NEdge.tgt) g.verts.length g.verts []) with
      | none => exact absurd ((largest_spec _).1.1 hl) hc
      | some k =>
        refine ⟨_, rfl, ⟨⟨?_, ?_, ?_, ?_, ?_, ?_, ?_⟩, ?_, ?_, ?_⟩, fun h => by simp [h] at hu, fun h => hne h.2⟩
        · exact h.nodup.filter _
        · exact h.eids.sublist (List.filter_sublist.map _)
        · exact fun e he => h.fresh e (List.mem_of_mem_filter he)
        · intro e he
          have := (List.mem_filter.1 he).2
          simp only [Bool.and_eq_true, decide_eq_true_eq] at this
          exact this.1
        · intro e he
          have := (List.mem_filter.1 he).2
          simp only [Bool.and_eq_true, decide_eq_true_eq] at this
          exact this.2
        · exact fun e he => h.head e (List.mem_of_mem_filter he)
        · exact fun e he => h.last e (List.mem_of_mem_filter he)
        · exact List.filter_sublist
        · exact fun hl e he => hl e (List.mem_of_mem_filter he)
        · exact segments_sublist List.filter_sublist
  · exact .inr ⟨g, rfl, .rfl h, fun _ => rfl, fun h => hu h.1⟩

/-! ### All steps -/

theorem processed_kept (s : Steps) {pos : Nat → P} {g g' : Net.Net P} (h : WF pos g) (he : processed s pos g = .ok g') :
    Kept pos g g' ∧ (s.unconnected = false → segments g'.edges = segments g.edges) := by
  unfold processed at he
  obtain ⟨g1, e1, k1, t1⟩ := simplifyStep_kept s h
  rw [e1, Outcome.bind_ok] at he
  rcases unconnectedStep_kept s k1.wf with ⟨e2, _⟩ | ⟨g2, e2, k2, t2, _⟩
  · rw [e2] at he; cases he
  rw [e2, Outcome.bind_ok] at he
  obtain ⟨g3, e3, k3, t3⟩ := nodesStep_kept s k2.wf
  rw [e3, Outcome.bind_ok] at he
  rw [edgesStep_kept s he]
  exact ⟨(k1.trans k2).trans k3, fun hu => by rw [t3, t2 hu, t1]⟩

/-! ### Compression -/

theorem flatten_perm {β : Type} (f : β → Nat) : ∀ (vs : List Nat) (es : List β), vs.Nodup → (∀ e ∈ es, f e ∈ vs) →
    ((vs.map fun v => es.filter fun e => f e == v).flatten).Perm es := by
  intro vs
  induction vs with
  | nil =>
    intro es _ hes
    cases es with
    | nil => simp
    | cons e es => exact absurd (hes e (by simp)) (by simp)
  | cons v vs ih =>
    intro es hn hes
    rw [List.nodup_cons] at hn
    rw [List.map_cons, List.flatten_cons]
    have h1 : vs.map (fun v => es.filter fun e => f e == v) =
        vs.map (fun i => (es.filter fun e => !(f e == v)).filter fun e => f e == i) := by
      apply List.map_congr_left
      intro i hi
      rw [List.filter_filter]
      apply List.filter_congr
      intro e _
      have : i ≠ v := fun hc => hn.1 (hc ▸ hi)
      grind
    rw [h1]
    have := ih (es.filter fun e => !(f e == v)) hn.2 (by
      intro e he
      have h2 := List.mem_filter.1 he
      rcases List.mem_cons.1 (hes e h2.1) with h3 | h3
      · simp [h3] at h2
      · exact h3)
    exact (List.Perm.append_left _ this).trans (List.filter_append_perm _ _)

/-- The row that belongs to an edge of the network. -/
def RowOf (g : Net.Net P) (e : NEdge P) (r : Csr.Row (Nat × List P)) : Prop :=
  g.verts[r.src]? = some e.src ∧ g.verts[r.tgt]? = some e.tgt ∧ r.data = (e.name, e.line)

theorem graphOf_inv {N : Type} (node : Nat → N) {top : Nat} {pos : Nat → P} {g : Net.Net P} (h : WF pos g)
    (ht : ∀ v ∈ g.verts, v < top) : AdjList.Inv .bidirectional (graphOf node top g) := by
  have hv : (graphOf node top g).verts.map AdjList.Vert.id = g.verts := by
    simp only [graphOf, List.map_map, Function.comp_def]
    exact List.zipIdx_map_fst 0 _
  have hev : ∀ v, v ∈ g.verts → (graphOf node top g).hasV v = true := by
    intro v hm
    rw [← hv] at hm
    obtain ⟨x, h1, h2⟩ := List.mem_map.1 hm
    exact AdjList.hasV_iff.2 ⟨x, h1, h2⟩
  have hmem : ∀ {x : AdjList.Edge (Nat × List P)}, x ∈ (graphOf node top g).edges → ∃ e ∈ g.edges, x.id = e.eid ∧ x.src = e.src ∧ x.tgt = e.tgt := by
    intro x hx
    obtain ⟨y, hy, rfl⟩ := List.mem_map.1 hx
    exact ⟨y.1, List.fst_mem_of_mem_zipIdx hy, rfl, rfl, rfl⟩
  have hfil : ∀ (q : Nat → Nat → Bool) (l : List (NEdge P)) (n : Nat),
      (((l.zipIdx n).map fun x => (⟨x.1.eid, x.2, x.1.src, x.1.tgt, (x.1.name, x.1.line)⟩ : AdjList.Edge (Nat × List P))).filter
        (fun e => q e.src e.tgt)).map AdjList.Edge.id = (l.filter fun e => q e.src e.tgt).map NEdge.eid := by
    intro q l
    induction l with
    | nil => intro n; rfl
    | cons e l ih =>
      intro n
      rw [List.zipIdx_cons, List.map_cons, List.filter_cons, List.filter_cons]
      split_ifs
      · rw [List.map_cons, List.map_cons, ih]
      · exact ih _
  refine ⟨?_, ?_, ?_, ?_, ?_, ?_, ?_⟩
  · intro v hm
    have : v.id ∈ g.verts := by rw [← hv]; exact List.mem_map_of_mem hm
    exact Nat.lt_of_lt_of_le (ht _ this) (Nat.le_add_right _ _)
  · intro x hx
    obtain ⟨e, he, h1, _⟩ := hmem hx
    rw [h1]
    exact Nat.lt_of_lt_of_le (h.fresh e he) (Nat.le_add_left _ _)
  · rw [hv]; exact h.nodup
  · have : (graphOf node top g).edges.map AdjList.Edge.id = g.edges.map NEdge.eid := by
      have := hfil (fun _ _ => true) g.edges 0
      rw [List.filter_eq_self.2 (by simp), List.filter_eq_self.2 (by simp)] at this
      exact this
    rw [this]; exact h.eids
  · intro x hx
    obtain ⟨e, he, _, h2, h3⟩ := hmem hx
    rw [h2, h3]
    exact ⟨hev _ (h.src e he), hev _ (h.tgt e he)⟩
  · intro v
    have := hfil (fun a _ => a == v) g.edges 0
    have ho : AdjList.outInc (β := Nat × List P) .bidirectional v = fun e => e.src == v := by
      funext e
      simp [AdjList.outInc, AdjList.Dir.isUndirected]
    rw [ho]
    exact this.symm
  · intro v
    have := hfil (fun _ b => b == v) g.edges 0
    exact this.symm

theorem graphOf_indexed {N : Type} (node : Nat → N) (top : Nat) (g : Net.Net P) : AdjList.Indexed (graphOf node top g) := by
  constructor <;>
  · simp only [graphOf, List.map_map, Function.comp_def, List.length_map, List.length_zipIdx]
    exact zipIdx_map_snd _

theorem compressed_ok {N : Type} (node : Nat → N) {top : Nat} {pos : Nat → P} {g : Net.Net P} (h : WF pos g)
    (ht : ∀ v ∈ g.verts, v < top) : ∃ c, compressed node top g = .ok c ∧ c.verts.map Prod.snd = g.verts.map node ∧
      ∃ es, es.Perm g.edges ∧ List.Forall₂ (RowOf g) es c.edges := by
  have hi := graphOf_inv node h ht
  have hx := graphOf_indexed node top g
  have hc := Csr.convVerts_spec hi hx (graphOf node top g).verts (fun _ h => h) Csr.Csr.empty
  have hd : (graphOf node top g).verts.map AdjList.Vert.data = g.verts.map node := by
    simp only [graphOf, List.map_map, Function.comp_def]
    rw [show (fun x : Nat × Nat => node x.1) = node ∘ Prod.fst from rfl, ← List.map_map, List.zipIdx_map_fst]
  have hidx : ∀ v ∈ g.verts, ∃ k, Csr.indexOf (graphOf node top g) v = some k ∧ g.verts[k]? = some v := by
    intro v hv
    obtain ⟨k, hk⟩ := List.mem_iff_getElem?.1 hv
    have hm : (⟨v, k, node v⟩ : AdjList.Vert N) ∈ (graphOf node top g).verts :=
      List.mem_map.2 ⟨(v, k), List.mem_zipIdx_iff_getElem?.2 hk, rfl⟩
    exact ⟨k, Csr.indexOf_mem hi hm, hk⟩
  refine ⟨⟨Csr.starts (graphOf node top g) 0 (graphOf node top g).verts,
    ((graphOf node top g).verts.map (Csr.rowsOf (graphOf node top g))).flatten⟩, ?_, ?_, ?_⟩
  · unfold compressed
    rw [Csr.fromAdjList, show (Csr.Csr.empty, 0) =
      ((Csr.Csr.empty : Csr.Csr N (Nat × List P)), Csr.Csr.empty.edges.length (α := Csr.Row (Nat × List P))) from rfl, hc]
    simp [Csr.Csr.empty, Outcome.map]
  · rw [Csr.starts_data, hd]
  · refine ⟨(g.verts.map fun v => g.edges.filter fun e => e.src == v).flatten, flatten_perm _ _ _ h.nodup h.src, ?_⟩
    have hrow : ∀ e ∈ g.edges, ∀ n, RowOf g e (Csr.rowOf (graphOf node top g) ⟨e.eid, n, e.src, e.tgt, (e.name, e.line)⟩) := by
      intro e he n
      obtain ⟨k, hk, hk'⟩ := hidx e.src (h.src e he)
      obtain ⟨l, hl, hl'⟩ := hidx e.tgt (h.tgt e he)
      simp only [RowOf, Csr.rowOf, hk, hl, Option.getD_some]
      exact ⟨hk', hl', trivial⟩
    have hrows : ∀ (v : AdjList.Vert N), List.Forall₂ (RowOf g) (g.edges.filter fun e => e.src == v.id)
        (Csr.rowsOf (graphOf node top g) v) := by
      intro v
      have key : ∀ (l : List (NEdge P)) (n : Nat), (∀ e ∈ l, e ∈ g.edges) → List.Forall₂ (RowOf g) (l.filter fun e => e.src == v.id)
          ((((l.zipIdx n).map fun x => (⟨x.1.eid, x.2, x.1.src, x.1.tgt, (x.1.name, x.1.line)⟩ : AdjList.Edge (Nat × List P))).filter
            (fun e => e.src == v.id)).map (Csr.rowOf (graphOf node top g))) := by
        intro l
        induction l with
        | nil => intro n _; exact .nil
        | cons e l ih =>
          intro n hl
          rw [List.zipIdx_cons, List.map_cons, List.filter_cons, List.filter_cons]
          have := ih (n + 1) (fun x hx => hl x (List.mem_cons_of_mem _ hx))
          by_cases hs : (e.src == v.id) = true
          · rw [if_pos hs, if_pos hs, List.map_cons]
            exact .cons (hrow e (hl e (by simp)) n) this
          · rw [if_neg hs, if_neg hs]
            exact this
      exact key g.edges 0 (fun _ h => h)
    have : ∀ (l : List Nat) (n : Nat), List.Forall₂ (RowOf g) (l.map fun v => g.edges.filter fun e => e.src == v).flatten
        (((l.zipIdx n).map fun x => (⟨x.1, x.2, node x.1⟩ : AdjList.Vert N)).map (Csr.rowsOf (graphOf node top g))).flatten := by
      intro l
      induction l with
      | nil => intro n; exact .nil
      | cons v l ih =>
        intro n
        rw [List.zipIdx_cons]
        simp only [List.map_cons, List.flatten_cons]
        exact List.rel_append (hrows ⟨v, n, node v⟩) (ih _)
    exact this g.verts 0

end MM.Prepare
