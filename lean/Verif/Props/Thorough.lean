import Verif.Props.NetImport

/-!
# C99: simplification leaves nothing to simplify
-/

set_option autoImplicit false
set_option linter.unusedSectionVars false

namespace MM.Net

variable {P : Type} [DecidableEq P]

/-! ### Vertices that are mere passages -/

/-- One edge leads to the vertex, one leads away from it, from and to different vertices. -/
def OneWay (g : Net P) (v : Nat) : Prop :=
  ∃ i ∈ g.edges, ∃ o ∈ g.edges, (∀ e ∈ g.edges, e.tgt = v ↔ e = i) ∧ (∀ e ∈ g.edges, e.src = v ↔ e = o) ∧ i.src ≠ o.tgt

/-- The vertex has two neighbours, with edges from and to each of them along the same line. -/
def TwoWay (g : Net P) (v : Nat) : Prop :=
  ∃ i ∈ g.edges, ∃ j ∈ g.edges, ∃ o ∈ g.edges, ∃ p ∈ g.edges, i ≠ j ∧ o ≠ p ∧ i ≠ o ∧ j ≠ p ∧
    (∀ e ∈ g.edges, e.tgt = v ↔ e = i ∨ e = j) ∧ (∀ e ∈ g.edges, e.src = v ↔ e = o ∨ e = p) ∧ i.src = o.tgt ∧ j.src = p.tgt ∧
    i.src ≠ j.src ∧ i.line = o.line.reverse ∧ j.line = p.line.reverse

theorem filter_one {α : Type} {l : List α} (hn : l.Nodup) {q : α → Bool} {a : α} (ha : a ∈ l) (h : ∀ e ∈ l, q e = true ↔ e = a) :
    l.filter q = [a] := by
  have : (l.filter q).Perm [a] := by
    rw [List.perm_ext_iff_of_nodup (hn.filter _) (by simp)]
    intro e
    simp only [List.mem_filter, List.mem_singleton]
    constructor
    · rintro ⟨h1, h2⟩; exact (h e h1).1 h2
    · rintro rfl; exact ⟨ha, (h _ ha).2 rfl⟩
  exact List.perm_singleton.1 this

theorem filter_two {α : Type} {l : List α} (hn : l.Nodup) {q : α → Bool} {a b : α} (ha : a ∈ l) (hb : b ∈ l) (hab : a ≠ b)
    (h : ∀ e ∈ l, q e = true ↔ e = a ∨ e = b) : l.filter q = [a, b] ∨ l.filter q = [b, a] := by
  have : (l.filter q).Perm [a, b] := by
    rw [List.perm_ext_iff_of_nodup (hn.filter _) (by simp [hab])]
    intro e
    simp only [List.mem_filter, List.mem_cons, List.not_mem_nil, or_false]
    constructor
    · rintro ⟨h1, h2⟩; exact (h e h1).1 h2
    · rintro (rfl | rfl)
      · exact ⟨ha, (h _ ha).2 (.inl rfl)⟩
      · exact ⟨hb, (h _ hb).2 (.inr rfl)⟩
  have hlen := this.length_eq
  have hnd := this.nodup_iff.2 (by simp [hab])
  have hmem := this.mem_iff (a := a)
  have hmem' := this.mem_iff (a := b)
  match hl : l.filter q, hlen with
  | [x, y], _ => rw [hl] at hmem hmem' hnd; simp at hmem hmem' hnd; grind

theorem WF.nodupEdges {pos : Nat → P} {g : Net P} (h : WF pos g) : g.edges.Nodup := List.Nodup.of_map _ h.eids

theorem OneWay.lists {pos : Nat → P} {g : Net P} (h : WF pos g) {v : Nat} (ho : OneWay g v) :
    ∃ i o, g.ins v = [i] ∧ g.outs v = [o] ∧ i.src ≠ o.tgt := by
  obtain ⟨i, h1, o, h2, h3, h4, h5⟩ := ho
  exact ⟨i, o, filter_one h.nodupEdges h1 (by simpa using h3), filter_one h.nodupEdges h2 (by simpa using h4), h5⟩

/-- Something is merged at the vertex. -/
def Busy (g : Net P) (v : Nat) : Prop := isMergeable g v = true ∧ merges true g v ≠ []

theorem OneWay.busy {pos : Nat → P} {g : Net P} (h : WF pos g) {v : Nat} (ho : OneWay g v) : Busy g v := by
  obtain ⟨i, o, h1, h2, h3⟩ := ho.lists h
  have hi := mem_ins.1 (show i ∈ g.ins v by rw [h1]; simp)
  have ho := mem_outs.1 (show o ∈ g.outs v by rw [h2]; simp)
  constructor
  · unfold isMergeable
    rw [if_pos (by simp [h1, h2])]
  · have hne : i.eid ≠ o.eid := by
      intro he
      have := h.inj hi.1 ho.1 he
      subst this
      exact h3 (ho.2.trans hi.2.symm)
    unfold merges
    simp [h1, h2, addMerge, hne, hi.2, ho.2, h3]

theorem TwoWay.busy {pos : Nat → P} {g : Net P} (h : WF pos g) {v : Nat} (ho : TwoWay g v) : Busy g v := by
  obtain ⟨i, hi, j, hj, o, ho, p, hp, h1, h2, h3, h4, h5, h6, h7, h8, h9, h10, h11⟩ := ho
  have inj : ∀ {a b : NEdge P}, a ∈ g.edges → b ∈ g.edges → (a.eid = b.eid ↔ a = b) := fun ha hb =>
    ⟨fun hh => h.inj ha hb hh, fun hh => by rw [hh]⟩
  have ti := (h5 i hi).2 (.inl rfl)
  have tj := (h5 j hj).2 (.inr rfl)
  have so := (h6 o ho).2 (.inl rfl)
  have sp := (h6 p hp).2 (.inr rfl)
  have hip : i ≠ p := by
    rintro rfl
    rw [sp, ← ti, ← h8] at h9
    exact h9 rfl
  have hjo : j ≠ o := by
    rintro rfl
    rw [so, ← tj, ← h7] at h9
    exact h9 rfl
  have hil : i.line ≠ [] := by
    intro hn; have := h.last _ hi; rw [hn] at this; cases this
  have hjl : j.line ≠ [] := by
    intro hn; have := h.last _ hj; rw [hn] at this; cases this
  have e1 := inj hi hj
  have e2 := inj ho hp
  have e3 := inj hi ho
  have e4 := inj hj hp
  have e5 := inj hi hp
  have e6 := inj hj ho
  have e1' := inj hj hi
  have e2' := inj hp ho
  have e3' := inj ho hi
  have e4' := inj hp hj
  have e5' := inj hp hi
  have e6' := inj ho hj
  have r1 : reversed i.line o.line = true := by
    unfold reversed
    rw [Bool.and_eq_true]
    exact ⟨by simpa using hil, by simpa using h10⟩
  have r2 : reversed j.line p.line = true := by
    unfold reversed
    rw [Bool.and_eq_true]
    exact ⟨by simpa using hjl, by simpa using h11⟩
  have d1 : o.tgt ≠ p.tgt := by rw [← h7, ← h8]; exact h9
  have l1 := filter_two h.nodupEdges (q := fun e => decide (e.tgt = v)) hi hj h1 (by simpa using h5)
  have l2 := filter_two h.nodupEdges (q := fun e => decide (e.src = v)) ho hp h2 (by simpa using h6)
  change g.ins v = _ ∨ g.ins v = _ at l1
  change g.outs v = _ ∨ g.outs v = _ at l2
  constructor
  · unfold isMergeable
    rcases l1 with l1 | l1 <;> rcases l2 with l2 | l2 <;>
      simp [l1, l2, matchIns, addPair, e1, e2, e3, e4, e5, e6, e1', e2', e3', e4', e5', e6', h1, h2, h3, h4, hip, hjo, h1.symm, h2.symm,
        h3.symm, h4.symm, hip.symm, hjo.symm, ti, tj, so, sp, h7, h8, d1, d1.symm, r1, r2]
  · unfold merges
    rcases l1 with l1 | l1 <;> rcases l2 with l2 | l2 <;>
      simp [l1, l2, addMerge, e1, e2, e3, e4, e5, e6, e1', e2', e3', e4', e5', e6', h1, h2, h3, h4, hip, hjo, h1.symm, h2.symm,
        h3.symm, h4.symm, hip.symm, hjo.symm, ti, tj, so, sp, h7, h8, d1, d1.symm]

theorem Busy.passage {pos : Nat → P} {g : Net P} (h : WF pos g) {v : Nat} (hb : Busy g v) : OneWay g v ∨ TwoWay g v := by
  obtain ⟨hm, hne⟩ := hb
  obtain ⟨p0, hp0⟩ := List.exists_mem_of_ne_nil _ hne
  have hok := merges_ok true g v
  obtain ⟨m1, m2⟩ := hok.mem p0 hp0
  have hd := hok.diff p0 hp0
  rcases mergeable_shape h hm with ⟨i, o, hi, ho⟩ | ⟨i1, i2, o1, o2, hi, ho, ha, hb, hn1, hn2, l1, l2⟩
  · left
    have ei : ∀ e, (e ∈ g.edges ∧ e.tgt = v) ↔ e = i := fun e => by rw [← mem_ins, hi, List.mem_singleton]
    have eo : ∀ e, (e ∈ g.edges ∧ e.src = v) ↔ e = o := fun e => by rw [← mem_outs, ho, List.mem_singleton]
    refine ⟨i, ((ei i).2 rfl).1, o, ((eo o).2 rfl).1, fun e he => ?_, fun e he => ?_, ?_⟩
    · rw [← ei]; simp [he]
    · rw [← eo]; simp [he]
    · rw [hi, List.mem_singleton] at m1
      rw [ho, List.mem_singleton] at m2
      rw [← m1, ← m2]; exact hd
  · right
    have ei : ∀ e, (e ∈ g.edges ∧ e.tgt = v) ↔ e = i1 ∨ e = i2 := fun e => by rw [← mem_ins, hi]; simp
    have eo : ∀ e, (e ∈ g.edges ∧ e.src = v) ↔ e = o1 ∨ e = o2 := fun e => by
      rw [← mem_outs]
      rcases ho with ho | ho <;> rw [ho] <;> simp [or_comm]
    have hi12 : i1 ≠ i2 := by
      have hnd : (g.ins v).Nodup := h.nodupEdges.filter _
      rw [hi] at hnd
      simpa using hnd
    have ho12 : o1 ≠ o2 := by
      have hnd : (g.outs v).Nodup := h.nodupEdges.filter _
      rcases ho with ho | ho <;> rw [ho] at hnd <;> simp at hnd
      · exact hnd
      · exact fun hh => hnd hh.symm
    refine ⟨i1, ((ei i1).2 (.inl rfl)).1, i2, ((ei i2).2 (.inr rfl)).1, o1, ((eo o1).2 (.inl rfl)).1, o2, ((eo o2).2 (.inr rfl)).1,
      hi12, ho12, fun hh => hn1 (by rw [hh]), fun hh => hn2 (by rw [hh]), fun e he => ?_, fun e he => ?_, ha, hb, ?_, l1, l2⟩
    · rw [← ei]; simp [he]
    · rw [← eo]; simp [he]
    · intro hh
      obtain ⟨q1, q2⟩ := pair_in_shape hi ho m1 m2
      apply hd
      rcases q1 with q1 | q1 <;> rcases q2 with q2 | q2 <;> rw [q1, q2]
      · exact ha
      · rw [hh]; exact hb
      · rw [← hh]; exact ha
      · exact hb

/-! ### One vertex -/

/-- The edge in place of two. -/
def IsJoin (g : Net P) (i o e : NEdge P) : Prop :=
  e ∉ g.edges ∧ e.src = i.src ∧ e.tgt = o.tgt ∧ e.line = i.line ++ o.line.tail

/-- The vertex is gone, one edge is left in place of two. -/
def Joined1 (g : Net P) (v : Nat) (i o : NEdge P) (g' : Net P) : Prop :=
  (∀ x, x ∈ g'.verts ↔ x ∈ g.verts ∧ x ≠ v) ∧
    ∃ n, IsJoin g i o n ∧ ∀ e, e ∈ g'.edges ↔ (e ∈ g.edges ∧ e ≠ i ∧ e ≠ o) ∨ e = n

/-- The vertex is gone, two edges are left in place of four. -/
def Joined2 (g : Net P) (v : Nat) (i j o p : NEdge P) (g' : Net P) : Prop :=
  (∀ x, x ∈ g'.verts ↔ x ∈ g.verts ∧ x ≠ v) ∧
    ∃ n m, n ≠ m ∧ IsJoin g i p n ∧ IsJoin g j o m ∧
      ∀ e, e ∈ g'.edges ↔ (e ∈ g.edges ∧ e ≠ i ∧ e ≠ j ∧ e ≠ o ∧ e ≠ p) ∨ e = n ∨ e = m

theorem mem_rest {pos : Nat → P} {g : Net P} (h : WF pos g) {i o : NEdge P} (hi : i ∈ g.edges) (ho : o ∈ g.edges) {e : NEdge P} :
    e ∈ rest g (i, o) ↔ e ∈ g.edges ∧ e ≠ i ∧ e ≠ o := by
  unfold rest
  simp only [List.mem_filter, decide_eq_true_eq]
  constructor
  · rintro ⟨h1, h2, h3⟩
    exact ⟨h1, fun hh => h2 (by rw [hh]), fun hh => h3 (by rw [hh])⟩
  · rintro ⟨h1, h2, h3⟩
    exact ⟨h1, fun hh => h2 (h.inj h1 hi hh), fun hh => h3 (h.inj h1 ho hh)⟩

theorem joined_new {pos : Nat → P} {g : Net P} (h : WF pos g) (p : NEdge P × NEdge P) : joined g p ∉ g.edges := fun hh => by
  have := h.fresh _ hh
  simp [joined] at this

theorem mem_drop {edges : List (NEdge P)} {v x : Nat} {verts : List Nat} : x ∈ dropIsolated edges v verts ↔
    x ∈ verts ∧ (x = v → ∃ e ∈ edges, e.src = v ∨ e.tgt = v) := by
  unfold dropIsolated
  split_ifs with hc
  · simp only [List.mem_filter, decide_eq_true_eq]
    simp only [List.all_eq_true, decide_eq_true_eq] at hc
    constructor
    · rintro ⟨h1, h2⟩; exact ⟨h1, fun hh => absurd hh h2⟩
    · rintro ⟨h1, h2⟩
      refine ⟨h1, fun hh => ?_⟩
      obtain ⟨e, he, h3⟩ := h2 hh
      have := hc e he
      tauto
  · simp only [List.all_eq_true, decide_eq_true_eq] at hc
    push Not at hc
    obtain ⟨e, he, h3⟩ := hc
    refine ⟨fun h1 => ⟨h1, fun _ => ⟨e, he, ?_⟩⟩, fun h1 => h1.1⟩
    by_cases h4 : e.src = v
    · exact .inl h4
    · exact .inr (h3 h4)

theorem OneWay.step {pos : Nat → P} {g g' : Net P} (h : WF pos g) {v : Nat} (hw : OneWay g v) (hs : simplifyVertex true g v = .ok g') :
    ∃ i o, i ∈ g.edges ∧ o ∈ g.edges ∧ (∀ e ∈ g.edges, e.tgt = v ↔ e = i) ∧ (∀ e ∈ g.edges, e.src = v ↔ e = o) ∧ i.src ≠ o.tgt ∧
      Joined1 g v i o g' := by
  have hb := hw.busy h
  obtain ⟨i, hi, o, ho, h1, h2, h3⟩ := hw
  refine ⟨i, o, hi, ho, h1, h2, h3, ?_⟩
  have ti := (h1 i hi).2 rfl
  have so := (h2 o ho).2 rfl
  have hm : merges true g v = [(i, o)] := by
    have li : g.ins v = [i] := filter_one h.nodupEdges hi (by simpa using h1)
    have lo : g.outs v = [o] := filter_one h.nodupEdges ho (by simpa using h2)
    have hne : i.eid ≠ o.eid := by
      intro he
      have := h.inj hi ho he
      subst this
      exact h3 (so.trans ti.symm)
    unfold merges
    simp [li, lo, addMerge, hne, ti, so, h3]
  unfold simplifyVertex at hs
  rw [if_pos hb.1, hm, mergeAll, mergeOne_ok h hi ho (ti.trans so.symm)] at hs
  simp only [Outcome.bind_ok, mergeAll, Outcome.ok.injEq] at hs
  subst hs
  refine ⟨fun x => ?_, joined g (i, o), ⟨joined_new h _, rfl, rfl, rfl⟩, fun e => ?_⟩
  · rw [mem_drop]
    constructor
    · rintro ⟨k1, k2⟩
      refine ⟨k1, ?_⟩
      rintro rfl
      obtain ⟨e, he, k3⟩ := k2 ti.symm
      rw [List.mem_append, mem_rest h hi ho, List.mem_singleton] at he
      rcases he with ⟨k4, k5, k6⟩ | rfl
      · rcases k3 with k3 | k3
        · exact k6 ((h2 e k4).1 (k3.trans ti))
        · exact k5 ((h1 e k4).1 (k3.trans ti))
      · rcases k3 with k3 | k3
        · have : i = o := (h2 i hi).1 (k3.trans ti)
          subst this
          exact h3 (k3.trans rfl)
        · have : o = i := (h1 o ho).1 (k3.trans ti)
          subst this
          exact h3 (so.trans ti.symm)
    · rintro ⟨k1, k2⟩
      exact ⟨k1, fun hh => absurd (hh.trans ti) k2⟩
  · rw [List.mem_append, mem_rest h hi ho, List.mem_singleton]

theorem TwoWay.step {pos : Nat → P} {g g' : Net P} (h : WF pos g) {v : Nat} (hw : TwoWay g v) (hs : simplifyVertex true g v = .ok g') :
    ∃ i j o p, i ∈ g.edges ∧ j ∈ g.edges ∧ o ∈ g.edges ∧ p ∈ g.edges ∧ i ≠ j ∧ o ≠ p ∧ i ≠ o ∧ j ≠ p ∧
      (∀ e ∈ g.edges, e.tgt = v ↔ e = i ∨ e = j) ∧ (∀ e ∈ g.edges, e.src = v ↔ e = o ∨ e = p) ∧ i.src = o.tgt ∧ j.src = p.tgt ∧
      i.src ≠ j.src ∧ i.line = o.line.reverse ∧ j.line = p.line.reverse ∧ Joined2 g v i j o p g' := by
  have hb := hw.busy h
  obtain ⟨i, j, o, p, hi, hj, ho, hp, h1, h2, h3, h4, h5, h6, h7, h8, h9, h10, h11, l1⟩ : ∃ i j o p, i ∈ g.edges ∧ j ∈ g.edges ∧
      o ∈ g.edges ∧ p ∈ g.edges ∧ i ≠ j ∧ o ≠ p ∧ i ≠ o ∧ j ≠ p ∧
      (∀ e ∈ g.edges, e.tgt = v ↔ e = i ∨ e = j) ∧ (∀ e ∈ g.edges, e.src = v ↔ e = o ∨ e = p) ∧ i.src = o.tgt ∧ j.src = p.tgt ∧
      i.src ≠ j.src ∧ i.line = o.line.reverse ∧ j.line = p.line.reverse ∧ g.ins v = [i, j] := by
    obtain ⟨i, hi, j, hj, o, ho, p, hp, h1, h2, h3, h4, h5, h6, h7, h8, h9, h10, h11⟩ := hw
    rcases filter_two h.nodupEdges (q := fun e => decide (e.tgt = v)) hi hj h1 (by simpa using h5) with l1 | l1
    · exact ⟨i, j, o, p, hi, hj, ho, hp, h1, h2, h3, h4, h5, h6, h7, h8, h9, h10, h11, l1⟩
    · exact ⟨j, i, p, o, hj, hi, hp, ho, h1.symm, h2.symm, h4, h3, fun e he => (h5 e he).trans or_comm,
        fun e he => (h6 e he).trans or_comm, h8, h7, h9.symm, h11, h10, l1⟩
  refine ⟨i, j, o, p, hi, hj, ho, hp, h1, h2, h3, h4, h5, h6, h7, h8, h9, h10, h11, ?_⟩
  have ne : ∀ {a b : NEdge P}, a ∈ g.edges → b ∈ g.edges → a ≠ b → a.eid ≠ b.eid := fun ha hb hab hh => hab (h.inj ha hb hh)
  have ti := (h5 i hi).2 (.inl rfl)
  have tj := (h5 j hj).2 (.inr rfl)
  have so := (h6 o ho).2 (.inl rfl)
  have sp := (h6 p hp).2 (.inr rfl)
  have hip : i ≠ p := by
    rintro rfl
    rw [sp, ← ti, ← h8] at h9
    exact h9 rfl
  have hjo : j ≠ o := by
    rintro rfl
    rw [so, ← tj, ← h7] at h9
    exact h9 rfl
  have d1 : o.tgt ≠ p.tgt := by rw [← h7, ← h8]; exact h9
  have iv : i.src ≠ v := by
    intro hh
    rcases (h6 i hi).1 hh with rfl | rfl
    · exact h3 rfl
    · exact hip rfl
  have jv : j.src ≠ v := by
    intro hh
    rcases (h6 j hj).1 hh with rfl | rfl
    · exact hjo rfl
    · exact h4 rfl
  have hm : merges true g v = [(i, p), (j, o)] := by
    have l2 := filter_two h.nodupEdges (q := fun e => decide (e.src = v)) ho hp h2 (by simpa using h6)
    change g.outs v = _ ∨ g.outs v = _ at l2
    have e1 := ne hi hj h1
    have e2 := ne ho hp h2
    have e3 := ne hi hp hip
    have e4 := ne hj ho hjo
    unfold merges
    rcases l2 with l2 | l2 <;> simp [l1, l2, addMerge, e1, e2, e2.symm, e3, e4, ti, tj, so, sp, h7, h8, d1, d1.symm]
  unfold simplifyVertex at hs
  have hwf := mergeOne_wf (p := (i, p)) h hi hp (ti.trans sp.symm)
  rw [if_pos hb.1, hm, mergeAll, mergeOne_ok (p := (i, p)) h hi hp (ti.trans sp.symm)] at hs
  generalize hg1 : (⟨dropIsolated (rest g (i, p) ++ [joined g (i, p)]) (i, p).1.tgt g.verts, rest g (i, p) ++ [joined g (i, p)],
    g.next + 1⟩ : Net P) = g1 at hs hwf
  have m1 : ∀ e, e ∈ g1.edges ↔ (e ∈ g.edges ∧ e ≠ i ∧ e ≠ p) ∨ e = joined g (i, p) := by
    intro e
    rw [← hg1]
    simp only [List.mem_append, mem_rest h hi hp, List.mem_singleton]
  have v1 : ∀ x, x ∈ g1.verts ↔ x ∈ g.verts := by
    intro x
    rw [← hg1]
    simp only [mem_drop]
    refine ⟨fun k => k.1, fun k => ⟨k, fun _ => ⟨j, ?_, .inr (tj.trans ti.symm)⟩⟩⟩
    rw [List.mem_append, mem_rest h hi hp]
    exact .inl ⟨hj, h1.symm, h4⟩
  have mj : j ∈ g1.edges := (m1 j).2 (.inl ⟨hj, h1.symm, h4⟩)
  have mo : o ∈ g1.edges := (m1 o).2 (.inl ⟨ho, h3.symm, h2⟩)
  rw [Outcome.bind_ok, mergeAll, mergeOne_ok (p := (j, o)) hwf mj mo (tj.trans so.symm)] at hs
  simp only [Outcome.bind_ok, mergeAll, Outcome.ok.injEq] at hs
  subst hs
  have hn := joined_new hwf (j, o)
  have hnm : joined g (i, p) ≠ joined g1 (j, o) := fun hh => hn ((m1 _).2 (.inr hh.symm))
  have jn : j ≠ joined g (i, p) := fun hh => joined_new h (i, p) (hh ▸ hj)
  have on : o ≠ joined g (i, p) := fun hh => joined_new h (i, p) (hh ▸ ho)
  have he : ∀ e, e ∈ rest g1 (j, o) ++ [joined g1 (j, o)] ↔ (e ∈ g.edges ∧ e ≠ i ∧ e ≠ j ∧ e ≠ o ∧ e ≠ p) ∨ e = joined g (i, p) ∨
      e = joined g1 (j, o) := by
    intro e
    rw [List.mem_append, mem_rest hwf mj mo, List.mem_singleton, m1]
    constructor
    · rintro (⟨⟨k1, k2, k3⟩ | k1, k4, k5⟩ | k1)
      · exact .inl ⟨k1, k2, k4, k5, k3⟩
      · exact .inr (.inl k1)
      · exact .inr (.inr k1)
    · rintro (⟨k1, k2, k3, k4, k5⟩ | k1 | k1)
      · exact .inl ⟨.inl ⟨k1, k2, k5⟩, k3, k4⟩
      · subst k1
        exact .inl ⟨.inr rfl, jn.symm, on.symm⟩
      · exact .inr k1
  refine ⟨fun x => ?_, joined g (i, p), joined g1 (j, o), hnm, ⟨joined_new h _, rfl, rfl, rfl⟩, ⟨?_, rfl, rfl, rfl⟩, he⟩
  · rw [mem_drop, v1]
    constructor
    · rintro ⟨k1, k2⟩
      refine ⟨k1, ?_⟩
      rintro rfl
      obtain ⟨e, he', k3⟩ := k2 tj.symm
      simp only [tj] at k3
      rcases (he e).1 he' with ⟨k4, k5, k6, k7, k8⟩ | rfl | rfl
      · rcases k3 with k3 | k3
        · rcases (h6 e k4).1 k3 with k9 | k9
          · exact k7 k9
          · exact k8 k9
        · rcases (h5 e k4).1 k3 with k9 | k9
          · exact k5 k9
          · exact k6 k9
      · rcases k3 with k3 | k3
        · exact iv k3
        · exact jv (h8.trans k3)
      · rcases k3 with k3 | k3
        · exact jv k3
        · exact iv (h7.trans k3)
    · rintro ⟨k1, k2⟩
      exact ⟨k1, fun hh => absurd (hh.trans tj) k2⟩
  · intro hh
    by_cases k : joined g1 (j, o) = i ∨ joined g1 (j, o) = p
    · rcases k with k | k
      · have := congrArg NEdge.src k
        exact h9 this.symm
      · have := congrArg NEdge.tgt k
        exact d1 this
    · push Not at k
      exact hn ((m1 _).2 (.inl ⟨hh, k.1, k.2⟩))

/-! ### Other vertices -/

theorem OneWay.before1 {g g' : Net P} {v x : Nat} {i o : NEdge P} (hi : i ∈ g.edges) (ho : o ∈ g.edges)
    (h1 : ∀ e ∈ g.edges, e.tgt = v ↔ e = i) (h2 : ∀ e ∈ g.edges, e.src = v ↔ e = o) (h3 : i.src ≠ o.tgt)
    (hj : Joined1 g v i o g') (hx : x ≠ v) (h : OneWay g' x) : OneWay g x := by
  obtain ⟨_, n, ⟨n1, n2, n3, _⟩, hm⟩ := hj
  obtain ⟨a, ha, b, hb, k1, k2, k3⟩ := h
  have mn : n ∈ g'.edges := (hm n).2 (.inr rfl)
  refine ⟨if a = n then o else a, ?_, if b = n then i else b, ?_, fun e he => ?_, fun e he => ?_, ?_⟩
  all_goals grind

theorem OneWay.before2 {g g' : Net P} {v x : Nat} {i j o p : NEdge P} (hi : i ∈ g.edges) (hj : j ∈ g.edges) (ho : o ∈ g.edges)
    (hp : p ∈ g.edges) (h1 : i ≠ j) (h2 : o ≠ p) (h3 : i ≠ o) (h4 : j ≠ p) (h5 : ∀ e ∈ g.edges, e.tgt = v ↔ e = i ∨ e = j)
    (h6 : ∀ e ∈ g.edges, e.src = v ↔ e = o ∨ e = p) (h7 : i.src = o.tgt) (h8 : j.src = p.tgt) (h9 : i.src ≠ j.src)
    (hJ : Joined2 g v i j o p g') (hx : x ≠ v) (h : OneWay g' x) : OneWay g x := by
  obtain ⟨_, n, m, nm, ⟨n1, n2, n3, _⟩, ⟨m1, m2, m3, _⟩, hm⟩ := hJ
  obtain ⟨a, ha, b, hb, k1, k2, k3⟩ := h
  have mn : n ∈ g'.edges := (hm n).2 (.inr (.inl rfl))
  have mm : m ∈ g'.edges := (hm m).2 (.inr (.inr rfl))
  refine ⟨a, ?_, b, ?_, fun e he => ?_, fun e he => ?_, ?_⟩
  all_goals grind

theorem TwoWay.before1 {g g' : Net P} {v x : Nat} {i o : NEdge P} (hi : i ∈ g.edges) (ho : o ∈ g.edges)
    (h1 : ∀ e ∈ g.edges, e.tgt = v ↔ e = i) (h2 : ∀ e ∈ g.edges, e.src = v ↔ e = o)
    (hj : Joined1 g v i o g')
    (hl : ∀ e ∈ g.edges, i.line ++ o.line.tail ≠ e.line.reverse ∧ e.line ≠ (i.line ++ o.line.tail).reverse)
    (hx : x ≠ v) (h : TwoWay g' x) : TwoWay g x := by
  obtain ⟨_, n, ⟨n1, n2, n3, n4⟩, hm⟩ := hj
  obtain ⟨a, ha, b, hb, c, hc, d, hd, k1, k2, k3, k4, k5, k6, k7, k8, k9, k10, k11⟩ := h
  rw [← n4] at hl
  have mn : n ∈ g'.edges := (hm n).2 (.inr rfl)
  have an : a ≠ n := by
    rintro rfl
    exact (hl c (((hm c).1 hc).resolve_right (fun hh => k3 hh.symm)).1).1 k10
  have cn : c ≠ n := by
    rintro rfl
    exact (hl a (((hm a).1 ha).resolve_right an).1).2 k10
  have bn : b ≠ n := by
    rintro rfl
    exact (hl d (((hm d).1 hd).resolve_right (fun hh => k4 hh.symm)).1).1 k11
  have dn : d ≠ n := by
    rintro rfl
    exact (hl b (((hm b).1 hb).resolve_right bn).1).2 k11
  refine ⟨a, (((hm a).1 ha).resolve_right an).1, b, (((hm b).1 hb).resolve_right bn).1, c, (((hm c).1 hc).resolve_right cn).1, d,
    (((hm d).1 hd).resolve_right dn).1, k1, k2, k3, k4, fun e he => ?_, fun e he => ?_, k7, k8, k9, k10, k11⟩
  all_goals grind

theorem TwoWay.before2 {g g' : Net P} {v x : Nat} {i j o p : NEdge P} (hi : i ∈ g.edges) (hj : j ∈ g.edges) (ho : o ∈ g.edges)
    (hp : p ∈ g.edges) (h1 : i ≠ j) (h2 : o ≠ p) (h3 : i ≠ o) (h4 : j ≠ p) (h5 : ∀ e ∈ g.edges, e.tgt = v ↔ e = i ∨ e = j)
    (h6 : ∀ e ∈ g.edges, e.src = v ↔ e = o ∨ e = p) (h7 : i.src = o.tgt) (h8 : j.src = p.tgt) (h9 : i.src ≠ j.src)
    (h10 : i.line = o.line.reverse) (h11 : j.line = p.line.reverse)
    (hJ : Joined2 g v i j o p g') (hx : x ≠ v) (h : TwoWay g' x) : TwoWay g x := by
  obtain ⟨_, n, m, nm, ⟨n1, n2, n3, _⟩, ⟨m1, m2, m3, _⟩, hm⟩ := hJ
  obtain ⟨a, ha, b, hb, c, hc, d, hd, k1, k2, k3, k4, k5, k6, k7, k8, k9, k10, k11⟩ := h
  have mn : n ∈ g'.edges := (hm n).2 (.inr (.inl rfl))
  have mm : m ∈ g'.edges := (hm m).2 (.inr (.inr rfl))
  have h10' : o.line = i.line.reverse := by rw [h10, List.reverse_reverse]
  have h11' : p.line = j.line.reverse := by rw [h11, List.reverse_reverse]
  by_cases xu : x = i.src
  · -- `m` leads to x, `n` away from it
    by_cases am : a = m
    · refine ⟨o, ho, b, ?_, i, hi, d, ?_, ?_, ?_, ?_, ?_, fun e he => ?_, fun e he => ?_, ?_, ?_, ?_, h10', k11⟩
      all_goals grind
    · refine ⟨a, ?_, o, ho, c, ?_, i, hi, ?_, ?_, ?_, ?_, fun e he => ?_, fun e he => ?_, ?_, ?_, ?_, k10, h10'⟩
      all_goals grind
  · by_cases xw : x = j.src
    · by_cases an : a = n
      · refine ⟨p, hp, b, ?_, j, hj, d, ?_, ?_, ?_, ?_, ?_, fun e he => ?_, fun e he => ?_, ?_, ?_, ?_, h11', k11⟩
        all_goals grind
      · refine ⟨a, ?_, p, hp, c, ?_, j, hj, ?_, ?_, ?_, ?_, fun e he => ?_, fun e he => ?_, ?_, ?_, ?_, k10, h11'⟩
        all_goals grind
    · refine ⟨a, ?_, b, ?_, c, ?_, d, ?_, k1, k2, k3, k4, fun e he => ?_, fun e he => ?_, k7, k8, k9, k10, k11⟩
      all_goals grind

/-! ### All vertices -/

/-- The points of a line between its ends. -/
def between (l : List P) : List P := l.tail.dropLast

theorem between_join {a b : List P} {q : P} (ha : 2 ≤ a.length) (hb : 2 ≤ b.length) (hq : a.getLast? = some q) :
    between (a ++ b.tail) = between a ++ q :: between b := by
  obtain ⟨x, a, rfl⟩ : ∃ x a', a = x :: a' := by cases a with | nil => simp at ha | cons x a => exact ⟨x, a, rfl⟩
  obtain ⟨y, b, rfl⟩ : ∃ x a', b = x :: a' := by cases b with | nil => simp at hb | cons x a => exact ⟨x, a, rfl⟩
  have hb' : b ≠ [] := by rintro rfl; simp at hb
  have ha' : a ≠ [] := by rintro rfl; simp at ha
  obtain ⟨t, z, rfl⟩ := List.eq_nil_or_concat' a |>.resolve_left ha'
  have : z = q := by
    rw [← List.cons_append, List.getLast?_concat] at hq
    exact Option.some.inj hq
  subst this
  simp only [between, List.cons_append, List.tail_cons]
  rw [List.dropLast_append_of_ne_nil hb']
  simp

theorem between_reverse (l : List P) : between l.reverse = (between l).reverse := by
  unfold between
  rw [List.tail_reverse, List.dropLast_reverse, List.tail_dropLast]

theorem vertex_wf {pos : Nat → P} {g g' : Net P} (h : WF pos g) {v : Nat} (hs : simplifyVertex true g v = .ok g') : WF pos g' := by
  obtain ⟨g1, h1, h2, _⟩ := simplifyVertex_ok pos (fun _ _ => (0 : Nat)) (fun _ _ => le_refl _) true h v
  rw [hs] at h1
  cases h1
  exact h2.wf

theorem idle {g : Net P} {v : Nat} (hb : ¬ Busy g v) : simplifyVertex true g v = .ok g := by
  unfold simplifyVertex
  split_ifs with hm
  · have : merges true g v = [] := by
      by_contra hne
      exact hb ⟨hm, hne⟩
    rw [this, mergeAll]
  · rfl

theorem oneWay_mem {pos : Nat → P} {g : Net P} (h : WF pos g) {v : Nat} (hw : OneWay g v) : v ∈ g.verts := by
  obtain ⟨i, hi, o, ho, h1, _⟩ := hw
  rw [← (h1 i hi).2 rfl]
  exact h.tgt i hi

theorem twoWay_mem {pos : Nat → P} {g : Net P} (h : WF pos g) {v : Nat} (hw : TwoWay g v) : v ∈ g.verts := by
  obtain ⟨i, hi, j, hj, o, ho, p, hp, _, _, _, _, h5, _⟩ := hw
  rw [← (h5 i hi).2 (.inl rfl)]
  exact h.tgt i hi

theorem vertex_oneWay {pos : Nat → P} {g g' : Net P} (h : WF pos g) {v : Nat} (hs : simplifyVertex true g v = .ok g') {x : Nat}
    (hx : OneWay g' x) : OneWay g x ∧ x ≠ v := by
  have hwf := vertex_wf h hs
  by_cases hb : Busy g v
  · rcases hb.passage h with hw | hw
    · obtain ⟨i, o, hi, ho, h1, h2, h3, hj⟩ := hw.step h hs
      have hxv : x ≠ v := ((hj.1 x).1 (oneWay_mem hwf hx)).2
      exact ⟨hx.before1 hi ho h1 h2 h3 hj hxv, hxv⟩
    · obtain ⟨i, j, o, p, hi, hj, ho, hp, h1, h2, h3, h4, h5, h6, h7, h8, h9, h10, h11, hJ⟩ := hw.step h hs
      have hxv : x ≠ v := ((hJ.1 x).1 (oneWay_mem hwf hx)).2
      exact ⟨hx.before2 hi hj ho hp h1 h2 h3 h4 h5 h6 h7 h8 h9 hJ hxv, hxv⟩
  · rw [idle hb] at hs
    cases hs
    refine ⟨hx, ?_⟩
    rintro rfl
    exact hb (hx.busy h)

theorem all_oneWay {pos : Nat → P} (vs : List Nat) : ∀ {g g' : Net P}, WF pos g → simplifyAll true g vs = .ok g' → ∀ x, OneWay g' x →
    OneWay g x ∧ x ∉ vs := by
  induction vs with
  | nil =>
    intro g g' _ hs x hx
    simp only [simplifyAll, Outcome.ok.injEq] at hs
    subst hs
    exact ⟨hx, by simp⟩
  | cons v vs ih =>
    intro g g' h hs x hx
    rw [simplifyAll] at hs
    obtain ⟨g1, h1, _⟩ := simplifyVertex_ok pos (fun _ _ => (0 : Nat)) (fun _ _ => le_refl _) true h v
    rw [h1, Outcome.bind_ok] at hs
    obtain ⟨k1, k2⟩ := ih (vertex_wf h h1) hs x hx
    obtain ⟨k3, k4⟩ := vertex_oneWay h h1 k1
    exact ⟨k3, by simp [k2, k4]⟩

/-- **C99, one-way roads.**  After complete simplification no vertex is left at which a single edge arrives and a single edge departs, from
and to different vertices. -/
theorem simplify_oneway {pos : Nat → P} {g g' : Net P} (h : WF pos g) (hs : simplify true g = .ok g') (v : Nat) : ¬ OneWay g' v := by
  intro hv
  obtain ⟨h1, h2⟩ := all_oneWay g.verts h hs v hv
  exact h2 (oneWay_mem h h1)

/-- Different vertices are at different points, lines have at least two points, and no line runs through the point of a vertex between
its ends. -/
structure Plain (pos : Nat → P) (g : Net P) : Prop where
  long : ∀ e ∈ g.edges, 2 ≤ e.line.length
  apart : ∀ v ∈ g.verts, ∀ w ∈ g.verts, pos v = pos w → v = w
  clear : ∀ e ∈ g.edges, ∀ v ∈ g.verts, pos v ∉ between e.line

theorem IsJoin.plain {pos : Nat → P} {g : Net P} (h : WF pos g) (hp : Plain pos g) {i o n : NEdge P} (hi : i ∈ g.edges)
    (ho : o ∈ g.edges) {v : Nat} (hv : v ∈ g.verts) (ti : i.tgt = v) (hn : IsJoin g i o n) : 2 ≤ n.line.length ∧ pos v ∈ between n.line ∧
      ∀ x ∈ g.verts, x ≠ v → pos x ∉ between n.line := by
  have hl := between_join (hp.long i hi) (hp.long o ho) (by rw [h.last i hi, ti])
  rw [hn.2.2.2]
  refine ⟨by have := hp.long i hi; simp; omega, by rw [hl]; simp, fun x hx hxv => ?_⟩
  rw [hl]
  simp only [List.mem_append, List.mem_cons]
  rintro (k | k | k)
  · exact hp.clear i hi x hx k
  · exact hxv (hp.apart x hx v hv k)
  · exact hp.clear o ho x hx k

theorem vertex_plain {pos : Nat → P} {g g' : Net P} (h : WF pos g) (hp : Plain pos g) {v : Nat} (hs : simplifyVertex true g v = .ok g') :
    Plain pos g' ∧ ∀ x, TwoWay g' x → TwoWay g x ∧ x ≠ v := by
  have hwf := vertex_wf h hs
  by_cases hb : Busy g v
  · rcases hb.passage h with hw | hw
    · have hv := oneWay_mem h hw
      obtain ⟨i, o, hi, ho, h1, h2, h3, hj⟩ := hw.step h hs
      have hj' := hj
      obtain ⟨hv', n, hn, hm⟩ := hj
      obtain ⟨n1, n2, n3⟩ := hn.plain h hp hi ho hv ((h1 i hi).2 rfl)
      refine ⟨⟨?_, ?_, ?_⟩, fun x hx => ?_⟩
      · intro e he
        rcases (hm e).1 he with k | rfl
        · exact hp.long e k.1
        · exact n1
      · intro a ha b hb
        exact hp.apart a ((hv' a).1 ha).1 b ((hv' b).1 hb).1
      · intro e he x hx
        obtain ⟨x1, x2⟩ := (hv' x).1 hx
        rcases (hm e).1 he with k | rfl
        · exact hp.clear e k.1 x x1
        · exact n3 x x1 x2
      · have hxv : x ≠ v := ((hv' x).1 (twoWay_mem hwf hx)).2
        refine ⟨hx.before1 hi ho h1 h2 hj' (fun e he => ⟨fun hh => ?_, fun hh => ?_⟩) hxv, hxv⟩
        · rw [hn.2.2.2, hh, between_reverse, List.mem_reverse] at n2
          exact hp.clear e he v hv n2
        · have := hp.clear e he v hv
          rw [hh, between_reverse, List.mem_reverse, ← hn.2.2.2] at this
          exact this n2
    · have hv := twoWay_mem h hw
      obtain ⟨i, j, o, p, hi, hj, ho, hq, h1, h2, h3, h4, h5, h6, h7, h8, h9, h10, h11, hJ⟩ := hw.step h hs
      have hJ' := hJ
      obtain ⟨hv', n, m, _, hn, hm', hm⟩ := hJ
      obtain ⟨n1, _, n3⟩ := hn.plain h hp hi hq hv ((h5 i hi).2 (.inl rfl))
      obtain ⟨m1, _, m3⟩ := hm'.plain h hp hj ho hv ((h5 j hj).2 (.inr rfl))
      refine ⟨⟨?_, ?_, ?_⟩, fun x hx => ?_⟩
      · intro e he
        rcases (hm e).1 he with k | rfl | rfl
        · exact hp.long e k.1
        · exact n1
        · exact m1
      · intro a ha b hb
        exact hp.apart a ((hv' a).1 ha).1 b ((hv' b).1 hb).1
      · intro e he x hx
        obtain ⟨x1, x2⟩ := (hv' x).1 hx
        rcases (hm e).1 he with k | rfl | rfl
        · exact hp.clear e k.1 x x1
        · exact n3 x x1 x2
        · exact m3 x x1 x2
      · have hxv : x ≠ v := ((hv' x).1 (twoWay_mem hwf hx)).2
        exact ⟨hx.before2 hi hj ho hq h1 h2 h3 h4 h5 h6 h7 h8 h9 h10 h11 hJ' hxv, hxv⟩
  · rw [idle hb] at hs
    cases hs
    refine ⟨hp, fun x hx => ⟨hx, ?_⟩⟩
    rintro rfl
    exact hb (hx.busy h)

theorem all_plain {pos : Nat → P} (vs : List Nat) : ∀ {g g' : Net P}, WF pos g → Plain pos g → simplifyAll true g vs = .ok g' →
    WF pos g' ∧ Plain pos g' ∧ ∀ x, TwoWay g' x → TwoWay g x ∧ x ∉ vs := by
  induction vs with
  | nil =>
    intro g g' h hp hs
    simp only [simplifyAll, Outcome.ok.injEq] at hs
    subst hs
    exact ⟨h, hp, fun x hx => ⟨hx, by simp⟩⟩
  | cons v vs ih =>
    intro g g' h hp hs
    rw [simplifyAll] at hs
    obtain ⟨g1, h1, _⟩ := simplifyVertex_ok pos (fun _ _ => (0 : Nat)) (fun _ _ => le_refl _) true h v
    rw [h1, Outcome.bind_ok] at hs
    obtain ⟨p1, p2⟩ := vertex_plain h hp h1
    obtain ⟨k1, k2, k3⟩ := ih (vertex_wf h h1) p1 hs
    refine ⟨k1, k2, fun x hx => ?_⟩
    obtain ⟨k4, k5⟩ := k3 x hx
    obtain ⟨k6, k7⟩ := p2 x k4
    exact ⟨k6, by simp [k5, k7]⟩

theorem all_idle (vs : List Nat) {g : Net P} (h : ∀ v ∈ vs, ¬ Busy g v) : simplifyAll true g vs = .ok g := by
  induction vs with
  | nil => rfl
  | cons v vs ih =>
    rw [simplifyAll, idle (h v (by simp)), Outcome.bind_ok]
    exact ih (fun x hx => h x (by simp [hx]))

/-- **C99, two-way roads.**  If different vertices are at different points and no line runs through the point of a vertex, then after
complete simplification no vertex is left at which two two-way roads from different neighbours meet and nothing else, and simplifying
again changes nothing.
Missing: vertices at equal points (`simplify_again_fails`). -/
theorem simplify_again_partial {pos : Nat → P} {g g' : Net P} (h : WF pos g) (hp : Plain pos g) (hs : simplify true g = .ok g') :
    (∀ v, ¬ TwoWay g' v) ∧ simplify true g' = .ok g' := by
  obtain ⟨h1, _, h2⟩ := all_plain g.verts h hp hs
  have htwo : ∀ v, ¬ TwoWay g' v := by
    intro v hv
    obtain ⟨k1, k2⟩ := h2 v hv
    exact k2 (twoWay_mem h k1)
  refine ⟨htwo, all_idle _ fun v _ hb => ?_⟩
  rcases hb.passage h1 with hw | hw
  · exact simplify_oneway h hs v hw
  · exact htwo v hw

/-! ### Examples and failures -/

/-- The hypotheses hold of the network of C23: two two-way roads meet at vertex 1 and two one-way roads at vertex 3. -/
example : TwoWay demoNet 1 ∧ OneWay demoNet 3 ∧ WF demoPos demoNet ∧ Plain demoPos demoNet := by
  refine ⟨⟨⟨0, 5, 0, 1, [0, 1]⟩, by decide, ⟨2, 7, 2, 1, [2, 1]⟩, by decide, ⟨1, 6, 1, 0, [1, 0]⟩, by decide, ⟨3, 5, 1, 2, [1, 2]⟩,
    by decide, by decide, by decide, by decide, by decide, by decide, by decide, by decide, by decide, by decide, by decide, by decide⟩,
    ⟨⟨4, 8, 2, 3, [2, 5]⟩, by decide, ⟨5, 9, 3, 0, [5, 0]⟩, by decide, by decide, by decide, by decide⟩, ?_, ?_⟩
  · constructor <;> decide
  · constructor <;> decide

/-- **C99 fails** where two nodes are at the same point: the lanes between 0 and 2 pass vertices 3 and 4 at -5.  When vertex 0 is visited,
its neighbours are different; when 3 and 4 are gone, two two-way roads meet at 0, and simplifying again removes it. -/
theorem simplify_again_fails :
    let pos : Nat → Int := fun v => [0, 10, -10, -5, -5, -20].getD v 0
    let g : Net Int := ⟨[0, 1, 2, 3, 4, 5], [⟨0, 0, 0, 1, [0, 10]⟩, ⟨1, 1, 1, 0, [10, 0]⟩, ⟨2, 2, 2, 3, [-10, -5]⟩, ⟨3, 3, 3, 0, [-5, 0]⟩,
      ⟨4, 4, 0, 4, [0, -5]⟩, ⟨5, 5, 4, 2, [-5, -10]⟩, ⟨6, 6, 2, 5, [-10, -20]⟩], 7⟩
    WF pos g ∧ ∃ g', simplify true g = .ok g' ∧ 0 ∈ g'.verts ∧ TwoWay g' 0 ∧ ∃ g'', simplify true g' = .ok g'' ∧ 0 ∉ g''.verts := by
  intro pos g
  refine ⟨by constructor <;> decide, ⟨[0, 1, 2, 5], [⟨0, 0, 0, 1, [0, 10]⟩, ⟨1, 1, 1, 0, [10, 0]⟩, ⟨6, 6, 2, 5, [-10, -20]⟩,
    ⟨7, 2, 2, 0, [-10, -5, 0]⟩, ⟨8, 4, 0, 2, [0, -5, -10]⟩], 9⟩, by decide +kernel, by decide, ?_, _, rfl, by decide +kernel⟩
  exact ⟨⟨1, 1, 1, 0, [10, 0]⟩, by decide, ⟨7, 2, 2, 0, [-10, -5, 0]⟩, by decide, ⟨0, 0, 0, 1, [0, 10]⟩, by decide,
    ⟨8, 4, 0, 2, [0, -5, -10]⟩, by decide, by decide, by decide, by decide, by decide, by decide, by decide, by decide, by decide, by decide,
    by decide, by decide⟩

/-- **C99 fails** in the mode that merges only edges of the same way: the one lane at vertex 1 that is merged makes vertex 0 a passage
between edges of the same way. -/
theorem simplify_again_ids_fails :
    let g : Net Int := ⟨[0, 1, 2], [⟨0, 7, 0, 1, [0, 1]⟩, ⟨1, 7, 1, 0, [1, 0]⟩, ⟨2, 7, 1, 2, [1, 2]⟩, ⟨3, 8, 2, 1, [2, 1]⟩], 4⟩
    WF (fun v => (v : Int)) g ∧ Plain (fun v => (v : Int)) g ∧
      ∃ g', simplify false g = .ok g' ∧ 0 ∈ g'.verts ∧ ∃ g'', simplify false g' = .ok g'' ∧ 0 ∉ g''.verts := by
  intro g
  exact ⟨by constructor <;> decide, by constructor <;> decide, ⟨[0, 1, 2], [⟨1, 7, 1, 0, [1, 0]⟩, ⟨3, 8, 2, 1, [2, 1]⟩,
    ⟨4, 7, 0, 2, [0, 1, 2]⟩], 5⟩, by decide +kernel, by decide, _, rfl, by decide +kernel⟩

end MM.Net
