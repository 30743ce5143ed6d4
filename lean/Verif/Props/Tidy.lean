import Verif.Props.Prepare
import Verif.Props.Thorough

/-!
# C99: simplification of prepared networks
-/

set_option autoImplicit false
set_option linter.unusedSectionVars false

namespace MM.Prepare

open MM.Net MM.Line

variable {P : Type} [DecidableEq P] [Inhabited P]

/-- Only the edges `l` lead to the vertex. -/
def To (c : Csr.Csr (Nat × P) (Nat × List P)) (v : Nat) (l : List (Csr.Row (Nat × List P))) : Prop :=
  (c.edges.filter fun r => decide (r.tgt = v)).Perm l

/-- Only the edges `l` lead away from the vertex. -/
def Away (c : Csr.Csr (Nat × P) (Nat × List P)) (v : Nat) (l : List (Csr.Row (Nat × List P))) : Prop :=
  (c.edges.filter fun r => decide (r.src = v)).Perm l

theorem forall₂_filter {α β : Type} {R : α → β → Prop} {p : α → Bool} {q : β → Bool} (hpq : ∀ a b, R a b → p a = q b) {l : List α}
    {m : List β} (h : List.Forall₂ R l m) : List.Forall₂ R (l.filter p) (m.filter q) := by
  induction h with
  | nil => exact .nil
  | @cons a b l m hab _ ih =>
    have := hpq a b hab
    cases hq : q b with
    | true => rw [List.filter_cons_of_pos (by rw [this, hq]), List.filter_cons_of_pos hq]; exact .cons hab ih
    | false => rw [List.filter_cons_of_neg (by rw [this, hq]; simp), List.filter_cons_of_neg (by rw [hq]; simp)]; exact ih

theorem index_inj {l : List Nat} (hn : l.Nodup) {a b x : Nat} (ha : l[a]? = some x) (hb : l[b]? = some x) : a = b := by
  obtain ⟨h1, h2⟩ := List.getElem?_eq_some_iff.1 ha
  obtain ⟨h3, h4⟩ := List.getElem?_eq_some_iff.1 hb
  exact (List.Nodup.getElem_inj_iff hn).1 (h2.trans h4.symm)

/-- The edges of the compressed network at a vertex are those of the adjacency list. -/
theorem Stages.tgts {f : Osm.Filters} {s : Steps} {es : List (Osm.Element P)} {c : Csr.Csr (Nat × P) (Nat × List P)} {st : Osm.St P}
    {g : Net.Net P} (h : Stages f s es c st g) {x v : Nat} (hx : g.verts[x]? = some v) {m : List (Csr.Row (Nat × List P))}
    (hm : To c x m) : ∃ l, l.Perm (g.ins v) ∧ List.Forall₂ (RowOf g) l m := by
  obtain ⟨l, h1, h2⟩ := h.rows
  have h3 := forall₂_filter (p := fun e => decide (e.tgt = v)) (q := fun r => decide (r.tgt = x)) (by
    rintro e r ⟨_, k, _⟩
    apply decide_eq_decide.2
    constructor
    · intro hh; rw [hh] at k; exact index_inj h.kept.wf.nodup k hx
    · intro hh; rw [hh, hx] at k; exact (Option.some.inj k).symm) h2
  obtain ⟨l', h4, h5⟩ := List.perm_comp_forall₂ hm.symm h3.flip
  exact ⟨l', h5.trans (h1.filter _), h4.flip⟩

theorem Stages.srcs {f : Osm.Filters} {s : Steps} {es : List (Osm.Element P)} {c : Csr.Csr (Nat × P) (Nat × List P)} {st : Osm.St P}
    {g : Net.Net P} (h : Stages f s es c st g) {x v : Nat} (hx : g.verts[x]? = some v) {m : List (Csr.Row (Nat × List P))}
    (hm : Away c x m) : ∃ l, l.Perm (g.outs v) ∧ List.Forall₂ (RowOf g) l m := by
  obtain ⟨l, h1, h2⟩ := h.rows
  have h3 := forall₂_filter (p := fun e => decide (e.src = v)) (q := fun r => decide (r.src = x)) (by
    rintro e r ⟨k, _, _⟩
    apply decide_eq_decide.2
    constructor
    · intro hh; rw [hh] at k; exact index_inj h.kept.wf.nodup k hx
    · intro hh; rw [hh, hx] at k; exact (Option.some.inj k).symm) h2
  obtain ⟨l', h4, h5⟩ := List.perm_comp_forall₂ hm.symm h3.flip
  exact ⟨l', h5.trans (h1.filter _), h4.flip⟩

theorem Stages.simplified {f : Osm.Filters} {s : Steps} {es : List (Osm.Element P)} {c : Csr.Csr (Nat × P) (Nat × List P)} {st : Osm.St P}
    {g : Net.Net P} (h : Stages f s es c st g) (ha : s.simplify = .all) (hu : s.unconnected = false) (hn : s.duplicateNodes = false) :
    simplify true (imported st) = .ok g := by
  have hst := h.steps
  unfold processed simplifyStep at hst
  rw [if_neg (by simp [ha]), show decide (s.simplify = .all) = true by simp [ha]] at hst
  cases h1 : simplify true (imported st) with
  | throws => rw [h1] at hst; cases hst
  | ub => rw [h1] at hst; cases hst
  | ok g1 =>
    rw [h1, Outcome.bind_ok] at hst
    unfold unconnectedStep at hst
    rw [if_neg (by simp [hu]), Outcome.bind_ok] at hst
    unfold nodesStep at hst
    rw [if_neg (by simp [hn]), Outcome.bind_ok] at hst
    rw [edgesStep_kept s hst]

/-- **C99, prepared networks, one-way roads.**  Complete simplification, components and duplicate nodes are not removed: no vertex of the
prepared network has a single edge to it and a single edge from it, from and to different vertices. -/
theorem prepared_oneway {f : Osm.Filters} {s : Steps} {es : List (Osm.Element P)} {c : Csr.Csr (Nat × P) (Nat × List P)}
    (h : prepare f s es = .ok c) (ha : s.simplify = .all) (hu : s.unconnected = false) (hn : s.duplicateNodes = false) {v : Nat}
    {i o : Csr.Row (Nat × List P)} (hi : To c v [i]) (ho : Away c v [o]) : i.src = o.tgt := by
  obtain ⟨st, g, hs⟩ := stages h
  have hwf := imported_wf (drawn_of (run_result hs.run).1)
  have hmem : i ∈ c.edges := (List.mem_filter.1 (hi.symm.subset (List.mem_singleton_self _))).1
  have hmt : i.tgt = v := by simpa using (List.mem_filter.1 (hi.symm.subset (List.mem_singleton_self _))).2
  obtain ⟨_, _, hrow⟩ := hs.row hmem
  obtain ⟨x, hx⟩ : ∃ x, g.verts[v]? = some x := ⟨_, by rw [← hmt]; exact hrow.2.1⟩
  obtain ⟨l1, p1, q1⟩ := hs.tgts hx hi
  obtain ⟨l2, p2, q2⟩ := hs.srcs hx ho
  cases q1 with
  | @cons e _ _ _ r1 q1 =>
    cases q1
    cases q2 with
    | @cons e' _ _ _ r2 q2 =>
      cases q2
      by_contra hne
      have m1 : ∀ y, y ∈ g.edges ∧ y.tgt = x ↔ y = e := fun y => by rw [← mem_ins, ← p1.mem_iff, List.mem_singleton]
      have m2 : ∀ y, y ∈ g.edges ∧ y.src = x ↔ y = e' := fun y => by rw [← mem_outs, ← p2.mem_iff, List.mem_singleton]
      refine simplify_oneway hwf (hs.simplified ha hu hn) x ⟨e, ((m1 e).2 rfl).1, e', ((m2 e').2 rfl).1, fun y hy => ?_, fun y hy => ?_, ?_⟩
      · rw [← m1]; simp [hy]
      · rw [← m2]; simp [hy]
      · intro hh
        have := r1.1
        rw [hh] at this
        exact hne (index_inj hs.kept.wf.nodup this r2.2.1)

theorem imported_plain {f : Osm.Filters} {es : List (Osm.Element P)} {st : Osm.St P} (hr : Osm.run f Osm.St.empty es = .ok st)
    (hd : ∀ a b p, Osm.firstPoint es a = some p → Osm.firstPoint es b = some p → a = b) :
    Plain (fun v => (nodeOf st v).2) (imported st) := by
  obtain ⟨_, h2, h3⟩ := run_result hr
  refine ⟨imported_long st, ?_, ?_⟩
  · intro v hv w hw hvw
    replace hv := List.mem_range.1 (show v ∈ List.range st.verts.length from hv)
    replace hw := List.mem_range.1 (show w ∈ List.range st.verts.length from hw)
    have hget : ∀ v (hv : v < st.verts.length), nodeOf st v = st.verts[v] := by
      intro v hv
      rw [nodeOf, List.getD_eq_getElem?_getD, List.getElem?_eq_getElem hv]
      rfl
    simp only [hget v hv, hget w hw] at hvw
    have e1 := h3 _ _ (show (st.verts[v].1, st.verts[v].2) ∈ st.verts from List.getElem_mem _)
    have e2 := h3 _ _ (show (st.verts[w].1, st.verts[w].2) ∈ st.verts from List.getElem_mem _)
    rw [← hvw] at e2
    have e3 := hd _ _ _ e1 e2
    have := List.nodup_iff_injective_getElem.1 h2 (a₁ := ⟨v, by simpa using hv⟩) (a₂ := ⟨w, by simpa using hw⟩) (by simpa using e3)
    exact congrArg Fin.val this
  · intro e he v _
    obtain ⟨x, _, rfl⟩ := List.mem_map.1 he
    simp [between]

/-- **C99, prepared networks, two-way roads.**  The same, where moreover different nodes of the files are at different points: no vertex
has two neighbours to and from each of which a single edge leads, along the same line, and nothing else.
Missing: nodes at equal points. -/
theorem prepared_twoway_partial {f : Osm.Filters} {s : Steps} {es : List (Osm.Element P)} {c : Csr.Csr (Nat × P) (Nat × List P)}
    (h : prepare f s es = .ok c) (ha : s.simplify = .all) (hu : s.unconnected = false) (hn : s.duplicateNodes = false)
    (hd : ∀ a b p, Osm.firstPoint es a = some p → Osm.firstPoint es b = some p → a = b) {v : Nat}
    {i j o p : Csr.Row (Nat × List P)} (hi : To c v [i, j]) (ho : Away c v [o, p]) (h1 : i.src = o.tgt) (h2 : j.src = p.tgt)
    (h3 : i.src ≠ v) (h4 : j.src ≠ v) (h5 : i.data.2 = o.data.2.reverse) (h6 : j.data.2 = p.data.2.reverse) : i.src = j.src := by
  obtain ⟨st, g, hs⟩ := stages h
  have hwf := imported_wf (drawn_of (run_result hs.run).1)
  have hmem : i ∈ c.edges := (List.mem_filter.1 (hi.symm.subset (by simp))).1
  have hmt : i.tgt = v := by simpa using (List.mem_filter.1 (hi.symm.subset (show i ∈ [i, j] by simp))).2
  obtain ⟨_, _, hrow⟩ := hs.row hmem
  obtain ⟨x, hx⟩ : ∃ x, g.verts[v]? = some x := ⟨_, by rw [← hmt]; exact hrow.2.1⟩
  obtain ⟨l1, p1, q1⟩ := hs.tgts hx hi
  obtain ⟨l2, p2, q2⟩ := hs.srcs hx ho
  obtain ⟨a, b, rfl, ra, rb⟩ : ∃ a b, l1 = [a, b] ∧ RowOf g a i ∧ RowOf g b j := by
    cases q1 with
    | cons ra q => cases q with | cons rb q => cases q; exact ⟨_, _, rfl, ra, rb⟩
  obtain ⟨y, z, rfl, ry, rz⟩ : ∃ y z, l2 = [y, z] ∧ RowOf g y o ∧ RowOf g z p := by
    cases q2 with
    | cons ra q => cases q with | cons rb q => cases q; exact ⟨_, _, rfl, ra, rb⟩
  by_contra hne
  have nd1 : [a, b].Nodup := p1.nodup_iff.2 (hs.kept.wf.nodupEdges.filter _)
  have nd2 : [y, z].Nodup := p2.nodup_iff.2 (hs.kept.wf.nodupEdges.filter _)
  have m1 : ∀ e, e ∈ g.edges ∧ e.tgt = x ↔ e = a ∨ e = b := fun e => by rw [← mem_ins, ← p1.mem_iff]; simp
  have m2 : ∀ e, e ∈ g.edges ∧ e.src = x ↔ e = y ∨ e = z := fun e => by rw [← mem_outs, ← p2.mem_iff]; simp
  have same : ∀ {k l u w : Nat}, g.verts[k]? = some u → g.verts[l]? = some w → (k = l ↔ u = w) := by
    intro k l u w hk hl
    constructor
    · rintro rfl; rw [hk] at hl; exact Option.some.inj hl
    · rintro rfl; exact index_inj hs.kept.wf.nodup hk hl
  have ax : a.src ≠ x := fun hh => h3 ((same ra.1 hx).2 hh)
  have bx : b.src ≠ x := fun hh => h4 ((same rb.1 hx).2 hh)
  have two := (simplify_again_partial hwf (imported_plain hs.run hd) (hs.simplified ha hu hn)).1
  refine two x ⟨a, ((m1 a).2 (.inl rfl)).1, b, ((m1 b).2 (.inr rfl)).1, y, ((m2 y).2 (.inl rfl)).1, z, ((m2 z).2 (.inr rfl)).1, ?_, ?_,
    ?_, ?_, fun e he => ?_, fun e he => ?_, (same ra.1 ry.2.1).1 h1, (same rb.1 rz.2.1).1 h2, fun hh => hne ((same ra.1 rb.1).2 hh), ?_, ?_⟩
  · simpa using nd1
  · simpa using nd2
  · rintro rfl; exact ax ((m2 a).2 (.inl rfl)).2
  · rintro rfl; exact bx ((m2 b).2 (.inr rfl)).2
  · rw [← m1]; simp [he]
  · rw [← m2]; simp [he]
  · have e1 := ra.2.2; have e2 := ry.2.2
    rw [e1, e2] at h5; exact h5
  · have e1 := rb.2.2; have e2 := rz.2.2
    rw [e1, e2] at h6; exact h6

theorem apart_of {es : List (Osm.Element Int)} (l : List (Nat × Int)) (hl : ∀ a p, Osm.firstPoint es a = some p → (a, p) ∈ l)
    (hn : ∀ x ∈ l, ∀ y ∈ l, x.2 = y.2 → x.1 = y.1) (a b : Nat) (p : Int) (h1 : Osm.firstPoint es a = some p)
    (h2 : Osm.firstPoint es b = some p) : a = b := hn _ (hl _ _ h1) _ (hl _ _ h2) rfl

/-- The town, simplified: the hypotheses hold of node 4 at the end of the road. -/
example : ∃ c, prepare Osm.defaults usually town = .ok c ∧ To c 2 [⟨1, 2, (101, [20, 35])⟩] ∧ Away c 2 [⟨2, 1, (101, [35, 20])⟩] := by
  refine ⟨_, town_usual, ?_, ?_⟩
  · unfold To; decide
  · unfold Away; decide

/-- A two-way road in a circle. -/
def ring : List (Osm.Element Int) :=
  [.node ⟨1, true, 0⟩, .node ⟨2, true, 10⟩, .node ⟨3, true, 20⟩, .node ⟨4, true, 35⟩,
    .way ⟨100, true, [1, 2, 3, 4, 1], [("highway", "primary")]⟩]

/-- Two nodes of the circle are left, with two roads between them: the hypotheses of `prepared_twoway_partial` hold. -/
example : (∃ c, prepare Osm.defaults usually ring = .ok c ∧ To c 1 [⟨0, 1, (100, [20, 35])⟩, ⟨0, 1, (100, [20, 10, 0, 35])⟩] ∧
      Away c 1 [⟨1, 0, (100, [35, 20])⟩, ⟨1, 0, (100, [35, 0, 10, 20])⟩]) ∧
    ∀ a b p, Osm.firstPoint ring a = some p → Osm.firstPoint ring b = some p → a = b := by
  refine ⟨⟨⟨[(0, (3, 20)), (2, (4, 35))], [⟨0, 1, (100, [20, 35])⟩, ⟨0, 1, (100, [20, 10, 0, 35])⟩, ⟨1, 0, (100, [35, 20])⟩,
    ⟨1, 0, (100, [35, 0, 10, 20])⟩]⟩, by decide +kernel, ?_, ?_⟩, apart_of [(1, 0), (2, 10), (3, 20), (4, 35)] ?_ (by decide)⟩
  · unfold To; decide
  · unfold Away; decide
  · intro a p h
    simp only [ring, Osm.firstPoint] at h
    split_ifs at h <;> simp_all

end MM.Prepare
