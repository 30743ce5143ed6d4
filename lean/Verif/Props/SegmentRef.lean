import Verif.Proofs.SegmentRef

/-!
# Segments that own their points, refer to them, or point to them (C111)
-/

set_option autoImplicit false
set_option linter.unusedSectionVars false

namespace MM.SegRef

open Line (Cell Geo segLen segAz)

variable {P : Type} [DecidableEq P] {R A : Type} {G : Geo P R A}

/-! ### Building a segment from another -/

/-- A segment built from another one, of whatever kind and style, has its points; nothing else changes: all lines and all other
segments have the points they had. -/
theorem make_exact (before : List (Op P)) (w w' : World P R A) (hw : World.empty.run G before = .ok w)
    (k : Kind) (st : Style) (j : Nat) (s : Seg R A) (hj : w.seg j = some s)
    (hs : w.step G (.make k st j) = .ok w') :
    (∃ t, w'.seg w.segs.length = some t ∧ t.kind = k ∧ t.style = st ∧ w'.points t = w.points s) ∧
    (∀ i r, w.seg i = some r → ∃ r', w'.seg i = some r' ∧ r'.kind = r.kind ∧ w'.points r' = w.points r) ∧
    (∀ l, l < w.lines.length → (w'.line l).map w'.mem = (w.line l).map w.mem) := by
  have hI := inv_run inv_empty hw
  have hmem : ∀ a, a < w.next → w'.mem a = w.mem a := fun a ha => mem_kept hs ha (by simp [touched])
  have hpts : ∀ (r r' : Seg R A), r.first < w.next ∧ r.second < w.next → r'.first = r.first → r'.second = r.second →
      w'.points r' = w.points r := by
    intro r r' hr h1 h2
    unfold World.points World.read
    rw [h1, h2, hmem _ hr.1, hmem _ hr.2]
  refine ⟨?_, ?_, ?_⟩
  · have hs' := hs
    simp only [World.step, hj] at hs'
    rw [map_eq_ok] at hs'
    obtain ⟨⟨w1, t, s'⟩, h1, rfl⟩ := hs'
    obtain ⟨hk, hst, hsame, hc, _⟩ := construct_inv h1
    rcases hc with ⟨_, p, q, hp, rfl, e1, e2⟩ | ⟨_, rfl, e1, e2, _⟩
    · refine ⟨t, by rw [World.seg_push]; simp, hk, hst, ?_⟩
      rw [hp, World.points_ok]
      have a0 := alloc_new (w := w) (ps := [p, q]) (i := 0) (by simp)
      have a1 := alloc_new (w := w) (ps := [p, q]) (i := 1) (by simp)
      simp only [Nat.add_zero, List.getElem_cons_zero, List.getElem_cons_succ] at a0 a1
      rw [e1, e2]
      exact ⟨a0, a1⟩
    · refine ⟨t, by rw [World.seg_push]; simp, hk, hst, hpts s t (hI.addr j s hj) e1 e2⟩
  · intro i r hi
    obtain ⟨r', h1, h2⟩ := seg_kept hs hi (by simp [Ends]) (by simp [Assigns])
    exact ⟨r', h1, h2.1, hpts r r' (hI.addr i r hi) h2.2.2.1 h2.2.2.2⟩
  · intro l hl
    rw [(line_place hs hl (by simp)).1]
    apply List.map_congr_left
    intro a ha
    exact hmem a (hI.alive_lt (hI.lineA l a ha))

/-- It can always be built as long as the points of the source are there. -/
theorem make_defined (w : World P R A) (k : Kind) (st : Style) (j : Nat) (s : Seg R A) (pq : P × P)
    (hj : w.seg j = some s) (hp : w.points s = .ok pq) : ∃ w', w.step G (.make k st j) = .ok w' := by
  have conv : ∀ s0 : Seg R A, Same s s0 → ∃ w1 ab, w.convert k s0 = .ok (w1, ab) ∧ ∀ t : Seg R A, t.first = ab.1 →
      t.second = ab.2 → ∃ pq, w1.points t = .ok pq := by
    intro s0 hs0
    have hp0 : w.points s0 = .ok pq := by rw [hs0.points, hp]
    cases k with
    | own =>
      refine ⟨w.alloc [pq.1, pq.2], (w.next, w.next + 1), by simp [World.convert, hp0], ?_⟩
      intro t h1 h2
      refine ⟨pq, ?_⟩
      rw [World.points_ok, h1, h2]
      have a0 := alloc_new (w := w) (ps := [pq.1, pq.2]) (i := 0) (by simp)
      have a1 := alloc_new (w := w) (ps := [pq.1, pq.2]) (i := 1) (by simp)
      exact ⟨a0, a1⟩
    | refer =>
      refine ⟨w, (s0.first, s0.second), ?_, ?_⟩
      · simp only [World.convert]; split
        · rfl
        · rw [hp0]; rfl
      · intro t h1 h2; exact ⟨pq, by rw [World.points_ok] at hp0 ⊢; rw [h1, h2]; exact hp0⟩
    | point =>
      refine ⟨w, (s0.first, s0.second), ?_, ?_⟩
      · simp only [World.convert]; split
        · rfl
        · rw [hp0]; rfl
      · intro t h1 h2; exact ⟨pq, by rw [World.points_ok] at hp0 ⊢; rw [h1, h2]; exact hp0⟩
  have : ∃ r, w.construct G k st s = .ok r := by
    obtain ⟨w1, ab, h1, h2⟩ := conv s (.refl _)
    unfold World.construct
    split
    · rw [h1]; exact ⟨_, rfl⟩
    · rw [h1]; exact ⟨_, rfl⟩
    · rw [h1]; exact ⟨_, rfl⟩
    · rw [h1]
      obtain ⟨pq', h3⟩ := h2 ⟨k, .eager, ab.1, ab.2, .uninit, .uninit⟩ rfl rfl
      obtain ⟨t, ht⟩ := compute_ok (G := G) h3
      simp only [Outcome.bind_ok]
      rw [ht]; exact ⟨_, rfl⟩
    · obtain ⟨s', hs'⟩ := compute_ok (G := G) hp
      rw [hs']
      obtain ⟨w2, ab2, h3, _⟩ := conv s' (compute_inv hs').1
      simp only [Outcome.bind_ok]
      rw [h3]; exact ⟨_, rfl⟩
    · rw [h1]; exact ⟨_, rfl⟩
  obtain ⟨r, hr⟩ := this
  simp only [World.step, hj, hr]
  exact ⟨_, rfl⟩

/-! ### Assigning -/

/-- Assigning one variable to another gives it the points the source had exactly if pointers are set, or the source has length
zero, or the first point written to is not the second one of the source. -/
theorem assign_exact (before : List (Op P)) (w w' : World P R A) (hw : World.empty.run G before = .ok w)
    (j k : Nat) (t s : Seg R A) (hj : w.seg j = some t) (hk : w.seg k = some s) (hjk : j ≠ k) (p q : P)
    (hp : w.points s = .ok (p, q)) (hs : w.step G (.assign j k) = .ok w') :
    ∃ t', w'.seg j = some t' ∧ t'.kind = t.kind ∧ t'.style = t.style ∧
      (w'.points t' = .ok (p, q) ↔ ((t.kind = .point ∧ s.kind = .point) ∨ p = q ∨ s.second ≠ t.first)) := by
  have hI := inv_run inv_empty hw
  simp only [World.step, hj, hk] at hs
  rw [if_neg (fun h => hjk h.1), map_eq_ok] at hs
  obtain ⟨⟨w1, t', s'⟩, h1, rfl⟩ := hs
  obtain ⟨e1, e2, hsame, hc, _⟩ := assign_inv h1
  have hw : w1.segs.length = w.segs.length := by
    rcases hc with ⟨_, rfl, _⟩ | ⟨_, _, _, p, q, _, _, _, _, rfl⟩ <;> rfl
  have hjl := World.seg_lt hj
  refine ⟨t', by rw [World.seg_put (by simp; omega), if_pos rfl], e1, e2, ?_⟩
  rw [World.points_ok] at hp
  simp only at hp
  rcases hc with ⟨hb, rfl, a1, a2⟩ | ⟨hb, a1, a2, p', q', hp', n1, hq', n2, rfl⟩
  · simp only [rebinds, decide_eq_true_eq] at hb
    constructor
    · intro _; exact .inl hb
    · intro _; rw [World.points_ok]; simp only [World.put_mem]; rw [a1, a2]; exact hp
  · have hb' : ¬ (t.kind = .point ∧ s.kind = .point) := by
      intro hx; simp [rebinds, hx.1, hx.2] at hb
    have hpp : p' = p := by rw [hp.1] at hp'; cases hp'; rfl
    subst hpp
    have hd : t.first ≠ t.second := by
      rcases hI.dist j t hj with h | ⟨h, _⟩
      · exact h.1
      · rw [h] at n1; exact absurd hI.zero n1
    rw [World.points_ok]
    simp only [World.put_mem]
    rw [a1, a2]
    simp only [hd, if_false, if_true, true_and]
    simp only [hb', false_or]
    by_cases h : s.second = t.first
    · simp only [h, if_true, Option.some.injEq] at hq'
      subst hq'
      simp [h]
    · simp only [h, if_false] at hq'
      rw [hp.2] at hq'; cases hq'
      simp [h]

/-- A segment that owns its points, assigned from one that does not refer to them, has the points of the source. -/
theorem assign_own (before : List (Op P)) (w w' : World P R A) (hw : World.empty.run G before = .ok w)
    (j k : Nat) (t s : Seg R A) (hj : w.seg j = some t) (hk : w.seg k = some s) (hjk : j ≠ k)
    (ho : t.kind = .own) (hd : s.kind = .own ∨ (s.first ∉ t.cells ∧ s.second ∉ t.cells)) (p q : P)
    (hp : w.points s = .ok (p, q)) (hs : w.step G (.assign j k) = .ok w') :
    ∃ t', w'.seg j = some t' ∧ t'.kind = .own ∧ w'.points t' = .ok (p, q) := by
  obtain ⟨t', h1, h2, _, h3⟩ := assign_exact before w w' hw j k t s hj hk hjk p q hp hs
  refine ⟨t', h1, h2.trans ho, h3.2 (.inr (.inr ?_))⟩
  intro e
  have hc : t.first ∈ t.cells := by simp [Seg.cells, ho]
  rcases hd with hd | ⟨_, hd⟩
  · have hI := inv_run inv_empty hw
    exact hjk (hI.ownD j t k s hj hk t.first hc (by simp [Seg.cells, hd, e])).symm
  · rw [e] at hd; exact hd hc

/-! ### Segments that own their points are independent -/

/-- No other variable refers to the points of a variable. -/
def Alone (w : World P R A) (j : Nat) : Prop :=
  ∀ s, w.seg j = some s → ∀ i r, i ≠ j → w.seg i = some r → r.first ∉ s.cells ∧ r.second ∉ s.cells

/-- The step neither assigns to the variable nor ends it, and makes no references to its points. -/
def Leaves (j : Nat) : Op P → Prop
  | .assign i _ => i ≠ j
  | .drop i => i ≠ j
  | .make k _ i => k = .own ∨ i ≠ j
  | _ => True

theorem own_step {w w' : World P R A} {op : Op P} (hI : Inv w) (hs : w.step G op = .ok w') {j : Nat} {s : Seg R A}
    (hj : w.seg j = some s) (ho : s.kind = .own) (hA : Alone w j) (hL : Leaves j op) :
    ∃ s', w'.seg j = some s' ∧ Same s s' ∧ w'.points s' = w.points s ∧ Alone w' j := by
  have hne : ¬ Ends j op := by cases op <;> simp_all [Ends, Leaves]
  have hna : ¬ Assigns j op := by cases op <;> simp_all [Assigns, Leaves]
  obtain ⟨s', h1, h2⟩ := seg_kept hs hj hne hna
  have hcells : s.cells = [s.first, s.second] := by simp [Seg.cells, ho]
  have hun : ∀ a, a ∈ s.cells → a ∉ touched w op := by
    intro a ha ht
    cases op with
    | set l i p =>
      simp only [touched] at ht
      cases hb : (w.line l)[i]? with
      | none => simp [hb] at ht
      | some b =>
        simp [hb] at ht; subst ht
        exact hI.ownL j s hj a ha l (List.mem_of_getElem? hb)
    | dropLine l => exact hI.ownL j s hj a ha l ht
    | assign i k =>
      simp only [touched] at ht
      split at ht
      · rename_i t r hi hk
        split at ht
        · cases ht
        · have := hA s hj i t hL hi
          simp only [List.mem_cons, List.not_mem_nil, or_false] at ht
          rcases ht with rfl | rfl
          · exact this.1 ha
          · exact this.2 ha
      · cases ht
    | drop i =>
      simp only [touched] at ht
      split at ht
      · rename_i r hi
        exact hL (hI.ownD j s i r hj hi a ha ht)
      · cases ht
    | line ps => simp [touched] at ht
    | take k st l i => simp [touched] at ht
    | null st => simp [touched] at ht
    | make k st j => simp [touched] at ht
    | ask j => simp [touched] at ht
  have hmem : ∀ a, a ∈ s.cells → w'.mem a = w.mem a := fun a ha =>
    mem_kept hs (hI.alive_lt (hI.ownA j s hj a ha)) (hun a ha)
  refine ⟨s', h1, h2, ?_, ?_⟩
  · unfold World.points World.read
    rw [h2.2.2.1, h2.2.2.2, hmem s.first (by simp [hcells]), hmem s.second (by simp [hcells])]
  · intro s0 hs0 i r' hij hi
    rw [h1] at hs0; cases hs0
    rw [h2.cells]
    have hno : ∀ a, (a = r'.first ∨ a = r'.second) → a ∉ s.cells := by
      intro a ha hm
      have hal := hI.ownA j s hj a hm
      rcases origin hs hi ha with h | h | ⟨l, h⟩ | ⟨i0, r, h3, h4, h5⟩
      · subst h; exact hal hI.zero
      · exact hal (hI.fresh a h)
      · exact hI.ownL j s hj a hm l h
      · have hij0 : i0 ≠ j := by
          rcases h5 with h | ⟨k, st, rfl, hk⟩ | ⟨rfl, hk⟩
          · omega
          · rcases hL with h | h
            · exact absurd h hk
            · exact h
          · rintro rfl; rw [hj] at h3; cases h3; rw [ho] at hk; cases hk
        have := hA s hj i0 r hij0 h3
        rcases h4 with rfl | rfl
        · exact this.1 hm
        · exact this.2 hm
    exact ⟨hno _ (.inl rfl), hno _ (.inr rfl)⟩

/-- A segment that owns its points keeps them, whatever else a program does with lines and other segments, as long as nothing
refers to them and the segment itself is not assigned to. -/
theorem own_kept (before ops : List (Op P)) (w w' : World P R A) (hw : World.empty.run G before = .ok w)
    (hr : w.run G ops = .ok w') (j : Nat) (s : Seg R A) (hj : w.seg j = some s) (ho : s.kind = .own)
    (hA : Alone w j) (hL : ∀ op ∈ ops, Leaves j op) :
    ∃ s', w'.seg j = some s' ∧ s'.kind = .own ∧ w'.points s' = w.points s := by
  have hI := inv_run inv_empty hw
  clear hw
  induction ops generalizing w s with
  | nil => cases hr; exact ⟨s, hj, ho, rfl⟩
  | cons op ops ih =>
    simp only [World.run, bind_eq_ok] at hr
    obtain ⟨w1, h1, h2⟩ := hr
    obtain ⟨s1, a1, a2, a3, a4⟩ := own_step hI h1 hj ho hA (hL op (by simp))
    obtain ⟨s2, b1, b2, b3⟩ := ih w1 h2 s1 a1 (a2.1.trans ho) a4 (fun o h => hL o (by simp [h])) (inv_step hI h1)
    exact ⟨s2, b1, b2, b3.trans a3⟩

/-- A newly built segment that owns its points is alone with them. -/
theorem made_alone (before : List (Op P)) (w w' : World P R A) (hw : World.empty.run G before = .ok w)
    (st : Style) (j : Nat) (hs : w.step G (.make .own st j) = .ok w') : Alone w' w.segs.length := by
  have hI := inv_run inv_empty hw
  intro t ht i r hir hr
  simp only [World.step] at hs
  split at hs
  · rename_i s hj
    rw [map_eq_ok] at hs
    obtain ⟨⟨w1, t0, s'⟩, h1, rfl⟩ := hs
    obtain ⟨hk, _, hsame, hc, _⟩ := construct_inv h1
    rcases hc with ⟨_, p, q, hp, rfl, e1, e2⟩ | ⟨hk', _⟩
    · rw [World.seg_push] at ht hr
      simp only [World.put_len, World.alloc_segs, if_pos] at ht
      cases ht
      simp only [World.put_len, World.alloc_segs, if_neg hir] at hr
      have hlt : r.first < w.next ∧ r.second < w.next := by
        rw [World.seg_put (w := w.alloc [p, q]) (World.seg_lt hj)] at hr
        split at hr
        · cases hr; rw [hsame.2.2.1, hsame.2.2.2]; exact hI.addr j s hj
        · exact hI.addr i r hr
      unfold Seg.cells
      split
      · simp only [List.mem_cons, List.not_mem_nil, or_false, e1, e2]; omega
      · rename_i hn; exact absurd hk hn
    · exact absurd rfl hk'
  · cases hs

/-! ### Lines -/

/-- A property of each step along a run. -/
def Throughout (G : Geo P R A) (Q : World P R A → Op P → Prop) : World P R A → List (Op P) → Prop
  | _, [] => True
  | w, op :: ops => Q w op ∧ ∀ w', w.step G op = .ok w' → Throughout G Q w' ops

/-- The step neither sets a point of the line nor ends it, and where it writes to the points of a segment, these are not points of
the line. -/
def Spares (l : Nat) (w : World P R A) : Op P → Prop
  | .set m _ _ => m ≠ l
  | .dropLine m => m ≠ l
  | .assign j k => ∀ t s, w.seg j = some t → w.seg k = some s → (t.kind = .point ∧ s.kind = .point) ∨
      (t.first ∉ w.line l ∧ t.second ∉ w.line l)
  | _ => True

/-- A line keeps its points, whatever a program does with segments of it and with other lines, as long as it does not assign
through references to its points. -/
theorem line_kept_partial (before ops : List (Op P)) (w w' : World P R A) (hw : World.empty.run G before = .ok w)
    (hr : w.run G ops = .ok w') (l : Nat) (hl : l < w.lines.length) (hS : Throughout G (Spares l) w ops) :
    (w'.line l).map w'.mem = (w.line l).map w.mem := by
  have hI := inv_run inv_empty hw
  clear hw
  induction ops generalizing w with
  | nil => cases hr; rfl
  | cons op ops ih =>
    simp only [World.run, bind_eq_ok] at hr
    obtain ⟨w1, h1, h2⟩ := hr
    have hsp := hS.1
    have hpl := line_place h1 hl (by rintro rfl; exact hsp rfl)
    rw [ih w1 h2 hpl.2 (hS.2 w1 h1) (inv_step hI h1), hpl.1]
    apply List.map_congr_left
    intro a ha
    refine mem_kept h1 (hI.alive_lt (hI.lineA l a ha)) ?_
    intro ht
    cases op with
    | set m i p =>
      simp only [touched] at ht
      cases hb : (w.line m)[i]? with
      | none => simp [hb] at ht
      | some b =>
        simp [hb] at ht; subst ht
        exact hsp (hI.lineD m l a (List.mem_of_getElem? hb) ha)
    | dropLine m => exact hsp (hI.lineD m l a ht ha)
    | assign i k =>
      simp only [touched] at ht
      split at ht
      · rename_i t r hi hk
        split at ht
        · cases ht
        · rename_i hb
          rcases hsp t r hi hk with h | h
          · simp [rebinds, h.1, h.2] at hb
          · simp only [List.mem_cons, List.not_mem_nil, or_false] at ht
            rcases ht with rfl | rfl
            · exact h.1 ha
            · exact h.2 ha
      · cases ht
    | drop i =>
      simp only [touched] at ht
      split at ht
      · rename_i r hi
        exact hI.ownL i r hi a ht l ha
      · cases ht
    | line ps => simp [touched] at ht
    | take k st l i => simp [touched] at ht
    | null st => simp [touched] at ht
    | make k st j => simp [touched] at ht
    | ask j => simp [touched] at ht

/-! ### Definedness -/

/-- Positions exist, lines and owners end only after all that refers to their points, and variables that point nowhere are used
for nothing but setting their pointers. -/
def Tidy (w : World P R A) : Op P → Prop
  | .line _ => True
  | .set l i _ => i < (w.line l).length
  | .dropLine l => ∀ i r, w.seg i = some r → r.first ∉ w.line l ∧ r.second ∉ w.line l
  | .take _ _ l i => i + 1 < (w.line l).length
  | .null _ => True
  | .make _ _ j => ∃ s, w.seg j = some s ∧ s.first ≠ 0
  | .assign j k => ∃ t s, w.seg j = some t ∧ w.seg k = some s ∧ s.first ≠ 0 ∧
      (t.first ≠ 0 ∨ (t.kind = .point ∧ s.kind = .point))
  | .ask j => ∃ s, w.seg j = some s ∧ s.first ≠ 0
  | .drop j => ∃ s, w.seg j = some s ∧ Alone w j

/-- Every variable that points somewhere points to points that are there. -/
def Sound (w : World P R A) : Prop :=
  ∀ j s, w.seg j = some s → s.first ≠ 0 → ∃ pq, w.points s = .ok pq

theorem Sound.alive {w : World P R A} (hI : Inv w) (h : Sound w) {j : Nat} {s : Seg R A} (hj : w.seg j = some s) {a : Nat}
    (ha : a = s.first ∨ a = s.second) (h0 : a ≠ 0) : w.mem a ≠ none := by
  have hf : s.first ≠ 0 := by
    rcases hI.dist j s hj with ⟨_, h1, _⟩ | ⟨h1, h2⟩
    · exact h1
    · rcases ha with rfl | rfl
      · exact absurd h1 h0
      · exact absurd h2 h0
  obtain ⟨pq, hp⟩ := h j s hj hf
  rw [World.points_ok] at hp
  rcases ha with rfl | rfl
  · rw [hp.1]; simp
  · rw [hp.2]; simp

theorem new_alive {w : World P R A} {p q : P} {a : Nat} (h1 : w.next ≤ a) (h2 : a < w.next + [p, q].length) :
    (w.alloc [p, q]).mem a ≠ none := by
  have := alloc_new (w := w) (ps := [p, q]) (i := a - w.next) (by omega)
  rw [show w.next + (a - w.next) = a by omega] at this
  rw [this]; simp

/-- A tidy step is defined. -/
theorem tidy_ok {w : World P R A} {op : Op P} (hI : Inv w) (hS : Sound w) (ht : Tidy w op) : ∃ w', w.step G op = .ok w' := by
  have wr : ∀ (w : World P R A) a p, w.mem a ≠ none → ∃ w', w.write a p = .ok w' := by
    intro w a p h
    unfold World.write
    cases hm : w.mem a with
    | none => exact absurd hm h
    | some _ => exact ⟨_, rfl⟩
  cases op with
  | line ps => exact ⟨_, rfl⟩
  | set l i p =>
    have hb : (w.line l)[i]? = some (w.line l)[i] := List.getElem?_eq_getElem ht
    simp only [World.step, hb]
    exact wr _ _ _ (hI.lineA l _ (List.getElem_mem ht))
  | dropLine l => exact ⟨_, rfl⟩
  | take k st l i =>
    have hi : i < (w.line l).length := Nat.lt_of_succ_lt ht
    have ha : (w.line l)[i]? = some (w.line l)[i] := List.getElem?_eq_getElem hi
    have hb : (w.line l)[i + 1]? = some (w.line l)[i + 1] := List.getElem?_eq_getElem ht
    simp only [World.step, ha, hb]
    have na := hI.lineA l _ (List.getElem_mem hi)
    have nb := hI.lineA l _ (List.getElem_mem ht)
    generalize (w.line l)[i] = a at na ⊢
    generalize (w.line l)[i + 1] = b at nb ⊢
    cases hma : w.mem a with
    | none => exact absurd hma na
    | some p =>
      cases hmb : w.mem b with
      | none => exact absurd hmb nb
      | some q =>
        have fin : ∀ (w0 : World P R A) (s0 : Seg R A), (∃ pq, w0.points s0 = .ok pq) →
            ∃ r, World.ofPoints.finish G st w0 s0 = .ok r := by
          rintro w0 s0 ⟨pq, h⟩
          unfold World.ofPoints.finish
          cases st
          · exact ⟨_, rfl⟩
          · exact ⟨_, rfl⟩
          · obtain ⟨s1, h1⟩ := compute_ok (G := G) h
            rw [h1]; exact ⟨_, rfl⟩
        have : ∃ r, w.ofPoints G k st a b = .ok r := by
          unfold World.ofPoints World.read
          simp only [hma, hmb, Outcome.bind_ok]
          cases k
          · apply fin
            refine ⟨(p, q), ?_⟩
            rw [World.points_ok]
            have a0 := alloc_new (w := w) (ps := [p, q]) (i := 0) (by simp)
            have a1 := alloc_new (w := w) (ps := [p, q]) (i := 1) (by simp)
            exact ⟨a0, a1⟩
          · exact fin _ _ ⟨(p, q), by rw [World.points_ok]; exact ⟨hma, hmb⟩⟩
          · exact fin _ _ ⟨(p, q), by rw [World.points_ok]; exact ⟨hma, hmb⟩⟩
        obtain ⟨r, hr⟩ := this
        rw [hr]; exact ⟨_, rfl⟩
  | null st => exact ⟨_, rfl⟩
  | make k st j =>
    obtain ⟨s, hj, h0⟩ := ht
    obtain ⟨pq, hp⟩ := hS j s hj h0
    exact make_defined w k st j s pq hj hp
  | assign j k =>
    obtain ⟨t, s, hj, hk, h0, h1⟩ := ht
    obtain ⟨⟨p, q⟩, hp⟩ := hS k s hk h0
    simp only [World.step, hj, hk]
    split
    · exact ⟨_, rfl⟩
    · have hs2 := World.points_ok.1 hp
      have pts : ∀ t0 : Seg R A, t0.kind = t.kind → t0.first = t.first → t0.second = t.second →
          ∃ r, w.assignPoints t0 s = .ok r := by
        intro t0 hk0 hf hs0
        unfold World.assignPoints
        split
        · exact ⟨_, rfl⟩
        · rename_i hb
          have hb' : ¬ (t.kind = .point ∧ s.kind = .point) := by
            intro hx; exact hb (by simp [rebinds, hk0, hx.1, hx.2])
          have ht0 : t.first ≠ 0 := by
            rcases h1 with h | h
            · exact h
            · exact absurd h hb'
          have n1 := hS.alive hI hj (.inl rfl) ht0
          have n2 : w.mem t.second ≠ none := by
            refine hS.alive hI hj (.inr rfl) ?_
            rcases hI.dist j t hj with h | h
            · exact h.2.2
            · exact absurd h.1 ht0
          rw [World.read_ok.2 hs2.1]
          simp only [Outcome.bind_ok]
          rw [hf, hs0]
          obtain ⟨w1, hw1⟩ := wr w t.first p n1
          rw [hw1]
          obtain ⟨_, rfl⟩ := write_inv hw1
          simp only [Outcome.bind_ok]
          have hq : ∃ q', (if s.second = t.first then some p else w.mem s.second) = some q' := by
            split
            · exact ⟨_, rfl⟩
            · exact ⟨_, hs2.2⟩
          obtain ⟨q', hq'⟩ := hq
          have hr : World.read { w with mem := fun b => if b = t.first then some p else w.mem b } s.second = .ok q' :=
            World.read_ok.2 hq'
          rw [hr]
          simp only [Outcome.bind_ok]
          obtain ⟨w2, hw2⟩ := wr { w with mem := fun b => if b = t.first then some p else w.mem b } t.second q' (by
            simp only; split
            · simp
            · exact n2)
          rw [hw2]; exact ⟨_, rfl⟩
      have alive : ∀ {t0 : Seg R A} {w1 : World P R A} {t1 : Seg R A}, w.assignPoints t0 s = .ok (w1, t1) →
          t0.first = t.first → t0.second = t.second →
          (∃ pq, w1.points t1 = .ok pq) ∧ (∃ pq, w1.points s = .ok pq) := by
        intro t0 w1 t1 h hf hs0
        have al : ∀ {m : Nat → Option P} {a b : Nat}, m a ≠ none → m b ≠ none →
            ∃ pq : P × P, m a = some pq.1 ∧ m b = some pq.2 := by
          intro m a b h1 h2
          cases e1 : m a with
          | none => exact absurd e1 h1
          | some x =>
            cases e2 : m b with
            | none => exact absurd e2 h2
            | some y => exact ⟨(x, y), rfl, rfl⟩
        rcases assignPoints_inv h with ⟨_, rfl, rfl⟩ | ⟨_, rfl, p', q', _, m1, _, m2, rfl⟩
        · exact ⟨⟨(p, q), World.points_ok.2 hs2⟩, ⟨(p, q), hp⟩⟩
        · have keep : ∀ a, w.mem a ≠ none →
              (if a = t1.second then some q' else if a = t1.first then some p' else w.mem a) ≠ none := by
            intro a ha; split
            · simp
            · split
              · simp
              · exact ha
          obtain ⟨x, hx⟩ := al (m := fun b => if b = t1.second then some q' else if b = t1.first then some p' else w.mem b)
            (keep t1.first m1) (keep t1.second m2)
          obtain ⟨y, hy⟩ := al (m := fun b => if b = t1.second then some q' else if b = t1.first then some p' else w.mem b)
            (keep s.first (by rw [hs2.1]; simp)) (keep s.second (by rw [hs2.2]; simp))
          exact ⟨⟨x, World.points_ok.2 hx⟩, ⟨y, World.points_ok.2 hy⟩⟩
      have : ∃ r, w.assign G t s = .ok r := by
        unfold World.assign
        obtain ⟨⟨w1, t1⟩, h1⟩ := pts t rfl rfl rfl
        obtain ⟨⟨w2, t2⟩, h2⟩ := pts (takeData t s) rfl rfl rfl
        obtain ⟨⟨pq1, a1⟩, ⟨pq2, a2⟩⟩ := alive h1 rfl rfl
        split
        · rw [h1]; exact ⟨_, rfl⟩
        · rw [h1]; exact ⟨_, rfl⟩
        · rw [h2]; exact ⟨_, rfl⟩
        · rw [h1]
          simp only [Outcome.bind_ok]
          obtain ⟨t3, h3⟩ := compute_ok (G := G) a1
          rw [h3]; exact ⟨_, rfl⟩
        · rw [h1]
          simp only [Outcome.bind_ok]
          obtain ⟨t3, h3⟩ := compute_ok (G := G) a2
          rw [h3]; exact ⟨_, rfl⟩
        · rw [h2]; exact ⟨_, rfl⟩
      obtain ⟨r, hr⟩ := this
      rw [hr]; exact ⟨_, rfl⟩
  | ask j =>
    obtain ⟨s, hj, h0⟩ := ht
    obtain ⟨pq, hp⟩ := hS j s hj h0
    simp only [World.step, hj]
    have : ∃ r, w.ask G s = .ok r := by
      unfold World.ask
      split
      · rw [hp]; exact ⟨_, rfl⟩
      · obtain ⟨s', h'⟩ := compute_ok (G := G) hp
        rw [h']; exact ⟨_, rfl⟩
      · exact ⟨_, rfl⟩
    obtain ⟨r, hr⟩ := this
    rw [hr]; exact ⟨_, rfl⟩
  | drop j =>
    obtain ⟨s, hj, _⟩ := ht
    simp only [World.step, hj]
    exact ⟨_, rfl⟩

/-- What is written to stays alive; what ends is what the step ends. -/
theorem mem_alive {w w' : World P R A} {op : Op P} (hs : w.step G op = .ok w') {a : Nat} (ha : a < w.next)
    (hm : w.mem a ≠ none) (h1 : ∀ l, op = .dropLine l → a ∉ w.line l)
    (h2 : ∀ j s, op = .drop j → w.seg j = some s → a ∉ s.cells) : w'.mem a ≠ none := by
  by_cases ht : a ∈ touched w op
  · cases op with
    | set l i p =>
      simp only [World.step] at hs
      split at hs
      · obtain ⟨_, rfl⟩ := write_inv hs
        simp only; split
        · simp
        · exact hm
      · cases hs
    | dropLine l => exact absurd ht (h1 l rfl)
    | assign j k =>
      simp only [World.step] at hs
      split at hs
      · split at hs
        · cases hs; exact hm
        · rw [map_eq_ok] at hs
          obtain ⟨⟨w1, t', s'⟩, h1, rfl⟩ := hs
          obtain ⟨_, _, _, hc, _⟩ := assign_inv h1
          rcases hc with ⟨_, rfl, _⟩ | ⟨hb, _, _, p, q, _, n1, _, n2, rfl⟩
          · exact hm
          · simp only [World.put_mem]; split
            · simp
            · split
              · simp
              · exact hm
      · cases hs
    | drop j =>
      simp only [touched] at ht
      split at ht
      · rename_i s hj; exact absurd ht (h2 j s rfl hj)
      · cases ht
    | line ps => simp [touched] at ht
    | take k st l i => simp [touched] at ht
    | null st => simp [touched] at ht
    | make k st j => simp [touched] at ht
    | ask j => simp [touched] at ht
  · rw [mem_kept hs ha ht]; exact hm

theorem tidy_sound {w w' : World P R A} {op : Op P} (hI : Inv w) (hS : Sound w) (ht : Tidy w op)
    (hs : w.step G op = .ok w') : Sound w' := by
  have hI' := inv_step hI hs
  have old : ∀ a, w.mem a ≠ none → ((∃ l, a ∈ w.line l) ∨ ∃ i r, w'.seg i = some r ∧ (a = r.first ∨ a = r.second)) →
      (∀ l, op = .dropLine l → a ∉ w.line l) → (∀ j s, op = .drop j → w.seg j = some s → a ∉ s.cells) →
      w'.mem a ≠ none := fun a hm _ h1 h2 => mem_alive hs (hI.alive_lt hm) hm h1 h2
  have main : ∀ i r', w'.seg i = some r' → ∀ a, (a = r'.first ∨ a = r'.second) → a ≠ 0 → w'.mem a ≠ none := by
    intro i r' hi a ha h0
    have hlt' : a < w'.next := by
      have := hI'.addr i r' hi
      rcases ha with rfl | rfl <;> omega
    rcases origin hs hi ha with h | h | ⟨l, h⟩ | ⟨i0, r, h3, h4, h5⟩
    · exact absurd h h0
    · -- new points belong to a new variable
      cases op with
      | line ps =>
        simp only [World.step, Outcome.ok.injEq] at hs; subst hs
        have := hI.addr i r' hi
        rcases ha with rfl | rfl <;> omega
      | set l m p =>
        simp only [World.step] at hs
        split at hs
        · obtain ⟨_, rfl⟩ := write_inv hs
          exact absurd hlt' (by simp only; omega)
        · cases hs
      | dropLine l =>
        simp only [World.step, Outcome.ok.injEq] at hs; subst hs
        exact absurd hlt' (by simp only [World.free]; omega)
      | take k st l m =>
        simp only [World.step] at hs
        split at hs
        · rw [map_eq_ok] at hs
          obtain ⟨⟨w1, s⟩, h1, rfl⟩ := hs
          obtain ⟨p, q, _, _, hk, _, hc, _⟩ := ofPoints_inv h1
          rcases hc with ⟨hk', rfl, e1, e2⟩ | ⟨_, rfl, _, _⟩
          · exact new_alive h hlt'
          · exact absurd hlt' (by simp only [World.push_next]; omega)
        · cases hs
      | null st =>
        simp only [World.step, Outcome.ok.injEq] at hs; subst hs
        exact absurd hlt' (by simp only [World.push_next]; omega)
      | make k st j =>
        simp only [World.step] at hs
        split at hs
        · rw [map_eq_ok] at hs
          obtain ⟨⟨w1, t, s'⟩, h1, rfl⟩ := hs
          obtain ⟨_, _, _, hc, _⟩ := construct_inv h1
          rcases hc with ⟨_, p, q, _, rfl, _, _⟩ | ⟨_, rfl, _⟩
          · exact new_alive h hlt'
          · exact absurd hlt' (by simp only [World.push_next, World.put_next]; omega)
        · cases hs
      | assign j k =>
        simp only [World.step] at hs
        split at hs
        · split at hs
          · cases hs; exact absurd hlt' (by omega)
          · rw [map_eq_ok] at hs
            obtain ⟨⟨w1, t', s'⟩, h1, rfl⟩ := hs
            obtain ⟨_, _, _, hc, _⟩ := assign_inv h1
            rcases hc with ⟨_, rfl, _⟩ | ⟨_, _, _, p, q, _, _, _, _, rfl⟩
            · exact absurd hlt' (by simp only [World.put_next]; omega)
            · exact absurd hlt' (by simp only [World.put_next]; omega)
        · cases hs
      | ask j =>
        simp only [World.step] at hs
        split at hs
        · rw [map_eq_ok] at hs
          obtain ⟨_, _, rfl⟩ := hs
          exact absurd hlt' (by simp only [World.put_next]; omega)
        · cases hs
      | drop j =>
        simp only [World.step] at hs
        split at hs
        · cases hs; exact absurd hlt' (by simp only [World.free]; omega)
        · cases hs
    · refine old a (hI.lineA l a h) (.inl ⟨l, h⟩) ?_ ?_
      · rintro m rfl hm
        obtain rfl := hI.lineD l m a h hm
        have : w.seg i = some r' := by
          simp only [World.step, Outcome.ok.injEq] at hs; subst hs; exact hi
        have := ht i r' this
        rcases ha with rfl | rfl
        · exact this.1 hm
        · exact this.2 hm
      · rintro j s rfl hj hm
        exact hI.ownL j s hj a hm l h
    · refine old a (hS.alive hI h3 h4 h0) (.inr ⟨i, r', hi, ha⟩) ?_ ?_
      · rintro m rfl hm
        have := ht i0 r h3
        rcases h4 with rfl | rfl
        · exact this.1 hm
        · exact this.2 hm
      · rintro j s rfl hj hm
        obtain ⟨s0, hs0, hA⟩ := ht
        have hij : i0 = i := by
          rcases h5 with h | ⟨_, _, h, _⟩ | ⟨h, _⟩
          · exact h
          · cases h
          · cases h
        have hne : i0 ≠ j := by
          rintro rfl
          subst hij
          simp only [World.step, hj] at hs
          cases hs
          have := seg_dropped (w := w) i0 i0 (w.free s.cells).mem
          rw [if_pos rfl] at this
          rw [show World.seg { w.free s.cells with segs := w.segs.set i0 none } i0 = _ from this] at hi
          cases hi
        have := hA s hj i0 r hne h3
        rcases h4 with rfl | rfl
        · exact this.1 hm
        · exact this.2 hm
  intro i r' hi h0
  have n1 := main i r' hi r'.first (.inl rfl) h0
  have n2 : w'.mem r'.second ≠ none := by
    refine main i r' hi r'.second (.inr rfl) ?_
    rcases hI'.dist i r' hi with h | h
    · exact h.2.2
    · exact absurd h.1 h0
  cases e1 : w'.mem r'.first with
  | none => exact absurd e1 n1
  | some x =>
    cases e2 : w'.mem r'.second with
    | none => exact absurd e2 n2
    | some y => exact ⟨(x, y), World.points_ok.2 ⟨e1, e2⟩⟩

/-- A tidy program is defined throughout, and at its end every segment that points somewhere has its points. -/
theorem defined_partial (ops : List (Op P)) (ht : Throughout G Tidy World.empty ops) :
    ∃ w, (World.empty : World P R A).run G ops = .ok w ∧ Sound w := by
  have gen : ∀ (ops : List (Op P)) (w : World P R A), Inv w → Sound w → Throughout G Tidy w ops →
      ∃ w', w.run G ops = .ok w' ∧ Sound w' := by
    intro ops
    induction ops with
    | nil => intro w _ hS _; exact ⟨w, rfl, hS⟩
    | cons op ops ih =>
      intro w hI hS ht
      obtain ⟨w1, h1⟩ := tidy_ok (G := G) hI hS ht.1
      obtain ⟨w2, h2, h3⟩ := ih w1 (inv_step hI h1) (tidy_sound hI hS ht.1 h1) (ht.2 w1 h1)
      exact ⟨w2, by simp [World.run, h1, h2], h3⟩
  exact gen ops _ inv_empty (by intro j s h; simp [World.seg, World.empty] at h) ht

/-! ### Length and azimuth -/

/-- The segment holds values. -/
def Keeps (s : Seg R A) : Prop := s.style ≠ .plain ∧ ¬ (s.length = .uninit ∧ s.azimuth = .uninit)

/-- What is written to is not referred to by other segments that hold values, nor by the one assigned; and plain segments are
assigned only to plain ones and to those that hold no values. -/
def Careful (w : World P R A) : Op P → Prop
  | .set l i _ => ∀ a, (w.line l)[i]? = some a → ∀ j s, w.seg j = some s → Keeps s → a ≠ s.first ∧ a ≠ s.second
  | .assign j k => ∀ t s, w.seg j = some t → w.seg k = some s →
      ((t.kind = .point ∧ s.kind = .point) ∨ ∀ i r, i ≠ j → w.seg i = some r → (Keeps r ∨ i = k) →
        t.first ≠ r.first ∧ t.first ≠ r.second ∧ t.second ≠ r.first ∧ t.second ≠ r.second) ∧
      (s.style = .plain → ¬ Keeps t)
  | _ => True

/-- The values held are those of the points. -/
def Exact (G : Geo P R A) (w : World P R A) (s : Seg R A) : Prop :=
  ∀ pq, w.points s = .ok pq → s.style ≠ .plain →
    (s.length = segLen G pq ∨ (s.length = .uninit ∧ s.style = .lazy)) ∧
    (s.azimuth = segAz G pq ∨ (s.azimuth = .uninit ∧ s.style = .lazy))

theorem segLen_init (G : Geo P R A) (pq : P × P) : segLen G pq ≠ .uninit := by
  unfold segLen; split <;> simp

theorem segAz_init (G : Geo P R A) (pq : P × P) : segAz G pq ≠ .uninit := by
  unfold segAz; split <;> simp

theorem compute_exact {w : World P R A} {s s' : Seg R A} (hE : s.style = .lazy → Exact G w s)
    (hU : s.style ≠ .lazy → s.length = .uninit ∧ s.azimuth = .uninit)
    (h : w.compute G s = .ok s') (pq : P × P) (hp : w.points s = .ok pq) :
    s'.length = segLen G pq ∧ s'.azimuth = segAz G pq := by
  obtain ⟨_, h1, h2⟩ := compute_inv h
  constructor
  · rcases h1 with ⟨_, pq', h3, h4⟩ | ⟨h3, h4⟩
    · rw [hp] at h3; cases h3; exact h4
    · by_cases hl : s.style = .lazy
      · rcases (hE hl pq hp (by rw [hl]; simp)).1 with h | h
        · rw [h4, h]
        · exact absurd h.1 h3
      · exact absurd (hU hl).1 h3
  · rcases h2 with ⟨_, pq', h3, h4⟩ | ⟨h3, h4⟩
    · rw [hp] at h3; cases h3; exact h4
    · by_cases hl : s.style = .lazy
      · rcases (hE hl pq hp (by rw [hl]; simp)).2 with h | h
        · rw [h4, h]
        · exact absurd h.1 h3
      · exact absurd (hU hl).2 h3

/-- Whether values are those of the points depends on the points only. -/
theorem Exact.of_points {w w' : World P R A} {s : Seg R A} (h : Exact G w s)
    (hp : ∀ pq, w'.points s = .ok pq → w.points s = .ok pq) : Exact G w' s :=
  fun pq h' hs => h pq (hp pq h') hs

theorem Exact.fill {w : World P R A} {s s' : Seg R A} (h : Exact G w s) (hs : s.style = .lazy) (hc : w.compute G s = .ok s') :
    Exact G w s' := by
  intro pq hp hst
  have hS := (compute_inv hc).1
  rw [hS.points] at hp
  have := compute_exact (fun _ => h) (fun hn => absurd hs hn) hc pq hp
  exact ⟨.inl this.1, .inl this.2⟩

/-- Exactness of what does not change, and of segments without values. -/
theorem exact_frame {w w' : World P R A} {op : Op P} (hI : Inv w) (hs : w.step G op = .ok w') {i : Nat} {r : Seg R A}
    (hi : w.seg i = some r) (hE : Exact G w r)
    (hT : Keeps r →
      ∀ a, a = r.first ∨ a = r.second → a ∈ touched w op → w'.mem a = none ∨ w'.mem a = w.mem a) : Exact G w' r := by
  intro pq hp hst
  have hlt := hI.addr i r hi
  rw [World.points_ok] at hp
  by_cases hK : Keeps r
  · have back : ∀ a, (a = r.first ∨ a = r.second) → a < w.next → ∀ x, w'.mem a = some x → w.mem a = some x := by
      intro a ha hal x hx
      by_cases ht : a ∈ touched w op
      · rcases hT hK a ha ht with h | h
        · rw [h] at hx; cases hx
        · rw [← h]; exact hx
      · rw [← mem_kept hs hal ht]; exact hx
    exact hE pq (World.points_ok.2 ⟨back _ (.inl rfl) hlt.1 _ hp.1, back _ (.inr rfl) hlt.2 _ hp.2⟩) hst
  · have hu : r.length = .uninit ∧ r.azimuth = .uninit := by
      rcases Classical.em (r.length = .uninit ∧ r.azimuth = .uninit) with h | h
      · exact h
      · exact absurd ⟨hst, h⟩ hK
    have hl : r.style = .lazy := by
      cases e : r.style with
      | plain => exact absurd e hst
      | lazy => rfl
      | eager =>
        exfalso
        have alive : ∀ a, a < w.next → w'.mem a ≠ none → w.mem a ≠ none := fun a ha h1 h2 => h1 (mem_gone hs ha h2)
        have n1 := alive r.first hlt.1 (by rw [hp.1]; simp)
        have n2 := alive r.second hlt.2 (by rw [hp.2]; simp)
        cases e1 : w.mem r.first with
        | none => exact n1 e1
        | some x =>
          cases e2 : w.mem r.second with
          | none => exact n2 e2
          | some y =>
            rcases (hE (x, y) (World.points_ok.2 ⟨e1, e2⟩) hst).1 with h | h
            · exact segLen_init G (x, y) (by rw [← h]; exact hu.1)
            · rw [e] at h; cases h.2
    exact ⟨.inr ⟨hu.1, hl⟩, .inr ⟨hu.2, hl⟩⟩

theorem exact_step {w w' : World P R A} {op : Op P} (hI : Inv w) (hE : ∀ j s, w.seg j = some s → Exact G w s)
    (hC : Careful w op) (hs : w.step G op = .ok w') : ∀ j s, w'.seg j = some s → Exact G w' s := by
  intro i r' hi
  have hs0 := hs
  have ends : ∀ {as : List Nat} {a : Nat}, a ∈ as → (w.free as).mem a = none := by
    intro as a h; simp [World.free, h]
  cases op with
  | line ps =>
    have : w.seg i = some r' := by simp only [World.step, Outcome.ok.injEq] at hs; subst hs; exact hi
    exact exact_frame hI hs0 this (hE i r' this) (fun _ a _ ht => by simp [touched] at ht)
  | set l m p =>
    have hw : w.seg i = some r' := by
      simp only [World.step] at hs
      split at hs
      · obtain ⟨_, rfl⟩ := write_inv hs; exact hi
      · cases hs
    refine exact_frame hI hs0 hw (hE i r' hw) (fun hK a ha ht => ?_)
    simp only [touched] at ht
    cases hb : (w.line l)[m]? with
    | none => simp [hb] at ht
    | some b =>
      simp [hb] at ht; subst ht
      have := hC a hb i r' hw hK
      rcases ha with h | h
      · exact absurd h this.1
      · exact absurd h this.2
  | dropLine l =>
    simp only [World.step, Outcome.ok.injEq] at hs; subst hs
    exact exact_frame hI hs0 hi (hE i r' hi) (fun _ a _ ht => .inl (ends ht))
  | take k st l m =>
    simp only [World.step] at hs
    split at hs
    · rename_i b c hb hcc
      rw [map_eq_ok] at hs
      obtain ⟨⟨w1, s⟩, h1, rfl⟩ := hs
      obtain ⟨p, q, _, _, hk, hst, hc, hv⟩ := ofPoints_inv h1
      rw [World.seg_push] at hi
      split at hi
      · cases hi
        intro pq hp hpl
        have hp' : w1.points s = .ok pq := hp
        rcases hv with ⟨he, hcm⟩ | ⟨hne, u1, u2⟩
        · have := compute_exact (G := G) (w := w1) (s := { s with length := .uninit, azimuth := .uninit }) (s' := s)
            (fun h => by simp only at h; rw [hst, he] at h; cases h) (fun _ => ⟨rfl, rfl⟩) hcm pq hp'
          exact ⟨.inl this.1, .inl this.2⟩
        · have hl : s.style = .lazy := by
            rw [hst]
            cases st
            · exact absurd hst hpl
            · rfl
            · exact absurd rfl hne
          exact ⟨.inr ⟨u1, hl⟩, .inr ⟨u2, hl⟩⟩
      · have hw : w.seg i = some r' := by
          rcases hc with ⟨_, rfl, _, _⟩ | ⟨_, rfl, _, _⟩ <;> exact hi
        exact exact_frame hI hs0 hw (hE i r' hw) (fun _ a _ ht => by simp [touched] at ht)
    · cases hs
  | null st =>
    simp only [World.step, Outcome.ok.injEq] at hs; subst hs
    rw [World.seg_push] at hi
    split at hi
    · cases hi
      intro pq hp
      rw [World.points_ok] at hp
      have := hp.1
      simp only [World.push_mem] at this
      rw [hI.zero] at this; cases this
    · exact exact_frame hI hs0 hi (hE i r' hi) (fun _ a _ ht => by simp [touched] at ht)
  | make k st j =>
    simp only [World.step] at hs
    split at hs
    · rename_i s hj
      rw [map_eq_ok] at hs
      obtain ⟨⟨w1, t, s'⟩, h1, rfl⟩ := hs
      obtain ⟨hk, hst, hsame, hc, hv⟩ := construct_inv h1
      have hw1 : w1.seg = w.seg ∧ w1.segs.length = w.segs.length := by
        rcases hc with ⟨_, p, q, _, rfl, _, _⟩ | ⟨_, rfl, _⟩ <;> exact ⟨rfl, rfl⟩
      have hjl := World.seg_lt hj
      -- what is left of the source
      have hEs' : Exact G w s' := by
        rcases hv with ⟨_, _, _, e⟩ | ⟨_, _, _, _, e⟩ | ⟨_, _, _, _, ⟨e, _⟩ | ⟨_, e2, e3⟩⟩ | ⟨_, _, e, _⟩
        · rw [e]; exact hE j s hj
        · rw [e]; exact hE j s hj
        · rw [e]; exact hE j s hj
        · exact (hE j s hj).fill e2 e3
        · rw [e]; exact hE j s hj
      have frame : ∀ r : Seg R A, r.first < w.next ∧ r.second < w.next → Exact G w r →
          Exact G ((w1.put j s').push t) r := by
        intro r hr hEr
        refine hEr.of_points ?_
        intro pq hp
        rw [World.points_ok] at hp ⊢
        rw [mem_kept hs0 hr.1 (by simp [touched]), mem_kept hs0 hr.2 (by simp [touched])] at hp
        exact hp
      rw [World.seg_push] at hi
      split at hi
      · cases hi
        -- the new segment
        intro pq hp hpl
        have hp1 : w1.points t = .ok pq := hp
        have hps : w.points s = .ok pq := by
          rcases hc with ⟨_, p, q, hq, rfl, e1, e2⟩ | ⟨_, rfl, e1, e2, _⟩
          · rw [World.points_ok] at hp1
            have a0 := alloc_new (w := w) (ps := [p, q]) (i := 0) (by simp)
            have a1 := alloc_new (w := w) (ps := [p, q]) (i := 1) (by simp)
            simp only [Nat.add_zero, List.getElem_cons_zero, List.getElem_cons_succ] at a0 a1
            rw [e1, e2] at hp1
            have b1 := hp1.1.symm.trans a0
            have b2 := hp1.2.symm.trans a1
            obtain ⟨x, y⟩ := pq
            simp only [Option.some.injEq] at b1 b2
            rw [b1, b2]; exact hq
          · rw [World.points_ok] at hp1 ⊢
            rw [← e1, ← e2]; exact hp1
        rcases hv with ⟨e, _⟩ | ⟨e, _, u1, u2, _⟩ | ⟨_, hn, v1, v2, hx⟩ | ⟨e, _, _, hcm⟩
        · exact absurd (hst.trans e) hpl
        · exact ⟨.inr ⟨u1, hst.trans e⟩, .inr ⟨u2, hst.trans e⟩⟩
        · rcases hx with ⟨e, hor⟩ | ⟨e1, e2, e3⟩
          · subst e
            have := hE j s' hj pq hps hn
            rw [v1, v2]
            rcases hor with hl | he
            · refine ⟨?_, ?_⟩
              · rcases this.1 with h | h
                · exact .inl h
                · exact .inr ⟨h.1, hst.trans hl⟩
              · rcases this.2 with h | h
                · exact .inl h
                · exact .inr ⟨h.1, hst.trans hl⟩
            · refine ⟨?_, ?_⟩
              · rcases this.1 with h | h
                · exact .inl h
                · rw [he] at h; cases h.2
              · rcases this.2 with h | h
                · exact .inl h
                · rw [he] at h; cases h.2
          · have := compute_exact (fun _ => hE j s hj) (fun hn => absurd e2 hn) e3 pq hps
            rw [v1, v2]
            exact ⟨.inl this.1, .inl this.2⟩
        · have := compute_exact (G := G) (w := w1) (s := { t with length := .uninit, azimuth := .uninit }) (s' := t)
            (fun h => by simp only at h; rw [hst, e] at h; cases h) (fun _ => ⟨rfl, rfl⟩) hcm pq hp1
          exact ⟨.inl this.1, .inl this.2⟩
      · rw [World.seg_put (by simp only; omega)] at hi
        split at hi
        · cases hi
          exact frame s' (by rw [hsame.2.2.1, hsame.2.2.2]; exact hI.addr j s hj) hEs'
        · simp only at hi; rw [hw1.1] at hi
          exact frame r' (hI.addr i r' hi) (hE i r' hi)
    · cases hs
  | assign j k =>
    simp only [World.step] at hs
    split at hs
    · rename_i t s hj hk
      obtain ⟨hC1, hC2⟩ := hC t s hj hk
      have hjl := World.seg_lt hj
      have hkl := World.seg_lt hk
      split at hs
      · cases hs; exact hE i r' hi
      · rw [map_eq_ok] at hs
        obtain ⟨⟨w1, t', s'⟩, h1, rfl⟩ := hs
        obtain ⟨e1, e2, hsame, hc, hv⟩ := assign_inv h1
        have hw1 : w1.seg = w.seg ∧ w1.segs.length = w.segs.length := by
          rcases hc with ⟨_, rfl, _⟩ | ⟨_, _, _, p, q, _, _, _, _, rfl⟩ <;> exact ⟨rfl, rfl⟩
        have hm1 : ((w1.put k s').put j t').mem = w1.mem := rfl
        -- the source keeps its points, if it is another variable or holds values
        have src : ∀ pq, w1.points s = .ok pq → w.points s = .ok pq := by
          intro pq hp
          rcases hc with ⟨_, rfl, _⟩ | ⟨hb, _, _, p, q, hp1, n1, hq, n2, rfl⟩
          · exact hp
          · rw [World.points_ok] at hp ⊢
            simp only at hp
            have hd : t.first ≠ t.second := by
              rcases hI.dist j t hj with h | ⟨h, _⟩
              · exact h.1
              · rw [h] at n1; exact absurd hI.zero n1
            by_cases hjk : j = k
            · subst hjk
              rw [hj] at hk; cases hk
              rw [if_neg hd, if_pos rfl, if_pos rfl] at hp
              rw [if_neg (Ne.symm hd)] at hq
              exact ⟨hp1.trans hp.1, hq.trans hp.2⟩
            · rcases hC1 with h | h
              · simp [rebinds, h.1, h.2] at hb
              · obtain ⟨d1, d2, d3, d4⟩ := h k s (Ne.symm hjk) hk (.inr rfl)
                rw [if_neg (Ne.symm d3), if_neg (Ne.symm d1), if_neg (Ne.symm d4), if_neg (Ne.symm d2)] at hp
                exact hp
        have hEs1 : Exact G w1 s := (hE k s hk).of_points src
        have hEs' : Exact G w1 s' := by
          rcases hv with ⟨_, e⟩ | ⟨_, _, _, _, e⟩ | ⟨_, _, _, _, ⟨e, _⟩ | ⟨_, e2, e3⟩⟩ | ⟨_, _, e, _⟩
          · rw [e]; exact hEs1
          · rw [e]; exact hEs1
          · rw [e]; exact hEs1
          · exact hEs1.fill e2 e3
          · rw [e]; exact hEs1
        -- the points of the target are those of the source
        have tgt : s.style ≠ .plain → ∀ pq, w1.points t' = .ok pq → w1.points s = .ok pq := by
          intro hn pq hp
          rcases hc with ⟨_, rfl, a1, a2⟩ | ⟨hb, a1, a2, p, q, hp1, n1, hq, n2, rfl⟩
          · rw [World.points_ok] at hp ⊢; rw [← a1, ← a2]; exact hp
          · have hd : t.first ≠ t.second := by
              rcases hI.dist j t hj with h | ⟨h, _⟩
              · exact h.1
              · rw [h] at n1; exact absurd hI.zero n1
            rw [World.points_ok] at hp ⊢
            simp only at hp ⊢
            rw [a1, a2, if_neg hd, if_pos rfl, if_pos rfl] at hp
            by_cases hjk : j = k
            · subst hjk
              rw [hj] at hk; cases hk
              rw [if_neg hd, if_pos rfl, if_pos rfl]
              exact hp
            · rcases hC1 with h | h
              · simp [rebinds, h.1, h.2] at hb
              · obtain ⟨d1, d2, d3, d4⟩ := h k s (Ne.symm hjk) hk (.inr rfl)
                rw [if_neg (Ne.symm d3), if_neg (Ne.symm d1), if_neg (Ne.symm d4), if_neg (Ne.symm d2)]
                rw [if_neg (Ne.symm d2)] at hq
                exact ⟨hp1.trans hp.1, hq.trans hp.2⟩
        rw [World.seg_put (by simp; omega)] at hi
        split at hi
        · cases hi
          intro pq hp hpl
          have hp1 : w1.points t' = .ok pq := hp
          have ht : t.style ≠ .plain := by rw [← e2]; exact hpl
          rcases hv with ⟨e, _⟩ | ⟨hl, hpn, v1, v2, _⟩ | ⟨_, hn, v1, v2, hx⟩ | ⟨he, hpn, _, hcm⟩
          · exact absurd e ht
          · have hnk := hC2 hpn
            have hu : t.length = .uninit ∧ t.azimuth = .uninit := by
              rcases Classical.em (t.length = .uninit ∧ t.azimuth = .uninit) with h | h
              · exact h
              · exact absurd ⟨ht, h⟩ hnk
            exact ⟨.inr ⟨v1.trans hu.1, e2.trans hl⟩, .inr ⟨v2.trans hu.2, e2.trans hl⟩⟩
          · have hps := tgt hn pq hp1
            rcases hx with ⟨e, hor⟩ | ⟨f1, f2, f3⟩
            · subst e
              have := hEs1 pq hps hn
              rw [v1, v2]
              rcases hor with hl | he
              · refine ⟨?_, ?_⟩
                · rcases this.1 with h | h
                  · exact .inl h
                  · exact .inr ⟨h.1, e2.trans hl⟩
                · rcases this.2 with h | h
                  · exact .inl h
                  · exact .inr ⟨h.1, e2.trans hl⟩
              · refine ⟨?_, ?_⟩
                · rcases this.1 with h | h
                  · exact .inl h
                  · rw [he] at h; cases h.2
                · rcases this.2 with h | h
                  · exact .inl h
                  · rw [he] at h; cases h.2
            · have := compute_exact (fun _ => hEs1) (fun hn => absurd f2 hn) f3 pq hps
              rw [v1, v2]
              exact ⟨.inl this.1, .inl this.2⟩
          · have hnk := hC2 hpn
            have hu : t.length = .uninit ∧ t.azimuth = .uninit := by
              rcases Classical.em (t.length = .uninit ∧ t.azimuth = .uninit) with h | h
              · exact h
              · exact absurd ⟨ht, h⟩ hnk
            have := compute_exact (G := G) (w := w1) (s := { t' with length := t.length, azimuth := t.azimuth }) (s' := t')
              (fun h => by simp only at h; rw [e2, he] at h; cases h) (fun _ => hu) hcm pq hp1
            exact ⟨.inl this.1, .inl this.2⟩
        · rename_i hij
          rw [World.seg_put (by simp only; omega)] at hi
          split at hi
          · cases hi; exact hEs'
          · simp only at hi; rw [hw1.1] at hi
            refine exact_frame hI hs0 hi (hE i r' hi) (fun hK a ha htt => ?_)
            simp only [touched, hj, hk] at htt
            split at htt
            · cases htt
            · rename_i hb
              rcases hC1 with h | h
              · simp [rebinds, h.1, h.2] at hb
              · obtain ⟨d1, d2, d3, d4⟩ := h i r' hij hi (.inl hK)
                simp only [List.mem_cons, List.not_mem_nil, or_false] at htt
                exfalso
                rcases htt with rfl | rfl
                · rcases ha with h | h
                  · exact d1 h
                  · exact d2 h
                · rcases ha with h | h
                  · exact d3 h
                  · exact d4 h
    · cases hs
  | ask j =>
    simp only [World.step] at hs
    split at hs
    · rename_i s hj
      rw [map_eq_ok] at hs
      obtain ⟨⟨v, s'⟩, h1, rfl⟩ := hs
      rw [World.seg_put (World.seg_lt hj)] at hi
      split at hi
      · cases hi
        show Exact G w s'
        unfold World.ask at h1
        split at h1
        · rw [map_eq_ok] at h1; obtain ⟨_, _, e⟩ := h1; cases e; exact hE j s hj
        · rename_i hl
          rw [map_eq_ok] at h1; obtain ⟨_, hc, e⟩ := h1; cases e; exact (hE j s hj).fill hl hc
        · cases h1; exact hE j s hj
      · exact hE i r' hi
    · cases hs
  | drop j =>
    simp only [World.step] at hs
    split at hs
    · rename_i s hj
      cases hs
      have := seg_dropped (w := w) j i (w.free s.cells).mem
      rw [show World.seg { w.free s.cells with segs := w.segs.set j none } i = _ from this] at hi
      split at hi
      · cases hi
      · refine exact_frame hI hs0 hi (hE i r' hi) (fun _ a _ ht => ?_)
        simp only [touched, hj] at ht
        exact .inl (ends ht)
    · cases hs

/-- In a careful program each segment answers with the length and azimuth its points have at that moment. -/
theorem current_partial (ops : List (Op P)) (w : World P R A) (hC : Throughout G Careful World.empty ops)
    (hr : World.empty.run G ops = .ok w) (j : Nat) (s : Seg R A) (hj : w.seg j = some s) (pq : P × P)
    (hp : w.points s = .ok pq) : ∃ s', w.ask G s = .ok ((segLen G pq, segAz G pq), s') := by
  have gen : ∀ (ops : List (Op P)) (w0 : World P R A), Inv w0 → (∀ j s, w0.seg j = some s → Exact G w0 s) →
      Throughout G Careful w0 ops → w0.run G ops = .ok w → ∀ j s, w.seg j = some s → Exact G w s := by
    intro ops
    induction ops with
    | nil => intro w0 _ hE _ h; cases h; exact hE
    | cons op ops ih =>
      intro w0 hI hE hC h
      simp only [World.run, bind_eq_ok] at h
      obtain ⟨w1, h1, h2⟩ := h
      exact ih w1 (inv_step hI h1) (exact_step hI hE hC.1 h1) (hC.2 w1 h1) h2
  have hE := gen ops _ inv_empty (by intro j s h; simp [World.seg, World.empty] at h) hC hr j s hj
  unfold World.ask
  split
  · rw [hp]; exact ⟨_, rfl⟩
  · rename_i hl
    obtain ⟨s', hs'⟩ := compute_ok (G := G) hp
    have := compute_exact (fun _ => hE) (fun hn => absurd hl hn) hs' pq hp
    rw [hs']
    exact ⟨s', by simp [this.1, this.2]⟩
  · rename_i he
    have := hE pq hp (by rw [he]; simp)
    refine ⟨s, ?_⟩
    have h1 : s.length = segLen G pq := by
      rcases this.1 with h | h
      · exact h
      · rw [he] at h; cases h.2
    have h2 : s.azimuth = segAz G pq := by
      rcases this.2 with h | h
      · exact h
      · rw [he] at h; cases h.2
    rw [h1, h2]

/-! ### What is not so, and examples -/

/-- Points on an axis. -/
def axis : Geo Nat Nat Nat :=
  ⟨fun a b => (a - b) + (b - a), fun a b => if a ≤ b then 90 else 270, fun _ b => b, id, 0, (· + ·), 0, (· + ·)⟩

/-- A line and its two segments by reference. -/
def road (st : Style) : List (Op Nat) := [.line [0, 10, 30], .take .refer st 0 0, .take .refer st 0 1]

/-- What can be seen of a state: the points of a line, and the points of the variables. -/
def view (w : World Nat Nat Nat) : List (Option Nat) × List (Outcome (Nat × Nat)) :=
  ((w.line 0).map w.mem, w.segs.map fun s => match s with | some s => w.points s | none => .throws)

example : (World.empty.run axis (road .lazy)).map view =
    .ok ([some 0, some 10, some 30], [.ok (0, 10), .ok (10, 30)]) := by decide +kernel

/-- It is false that assigning gives the target the points of the source, and that it leaves the line alone: for two neighbouring
segments of a line taken by reference, `second = first` moves all points of the line to the first. -/
theorem shifted_fails :
    ¬ ∀ (before : List (Op Nat)) (w w' : World Nat Nat Nat), World.empty.run axis before = .ok w →
      ∀ j k t s p q, w.seg j = some t → w.seg k = some s → w.points s = .ok (p, q) → w.step axis (.assign j k) = .ok w' →
      (∃ t', w'.seg j = some t' ∧ w'.points t' = .ok (p, q)) ∨ (w'.line 0).map w'.mem = (w.line 0).map w.mem := by
  intro h
  have e1 : (World.empty.run axis (road .plain)).map view = .ok ([some 0, some 10, some 30], [.ok (0, 10), .ok (10, 30)]) := by
    decide +kernel
  rw [map_eq_ok] at e1
  obtain ⟨w, hw, _⟩ := e1
  have hw0 := hw
  simp only [World.run, road, bind_eq_ok] at hw
  obtain ⟨w1, h1, w2, h2, w3, h3, h4⟩ := hw
  cases h4
  cases h1
  cases h2
  cases h3
  have key := h (road .plain) _ _ hw0 1 0 ⟨.refer, .plain, 2, 3, .uninit, .uninit⟩ ⟨.refer, .plain, 1, 2, .uninit, .uninit⟩ 0 10
    rfl rfl rfl rfl
  rcases key with ⟨t', k1, k2⟩ | k
  · cases k1; revert k2; decide +kernel
  · revert k; decide +kernel

/-- It is false that a program that only takes segments of a line and assigns to segments it declared leaves the line alone. -/
theorem overwritten_fails :
    ¬ ∀ (ops : List (Op Nat)), (∀ op ∈ ops, ∃ k st i, op = .take k st 0 i ∨ ∃ j k', op = .assign j k') →
      ∀ w, World.empty.run axis (.line [0, 10, 30] :: ops) = .ok w → (w.line 0).map w.mem = [some 0, some 10, some 30] := by
  intro h
  have key : (World.empty.run axis (.line [0, 10, 30] :: [.take .point .eager 0 0, .take .own .eager 0 1, .assign 0 1])).map view
      = .ok ([some 10, some 30, some 30], [.ok (10, 30), .ok (10, 30)]) := by decide +kernel
  rw [map_eq_ok] at key
  obtain ⟨w, hw, hv⟩ := key
  have := h _ ?_ w hw
  · have hv' := congrArg Prod.fst hv
    simp only [view] at hv'
    rw [this] at hv'
    revert hv'; decide
  · intro op hop
    simp only [List.mem_cons, List.not_mem_nil, or_false] at hop
    rcases hop with rfl | rfl | rfl
    · exact ⟨.point, .eager, 0, .inl rfl⟩
    · exact ⟨.own, .eager, 1, .inl rfl⟩
    · exact ⟨.own, .eager, 1, .inr ⟨0, 1, rfl⟩⟩

/-- It is false that a segment built from another can be used after it: pointing and referring ones point to the points of the
source. -/
theorem dangling_fails :
    ¬ ∀ (k : Kind) (ops : List (Op Nat)), ops = [.line [0, 10, 30], .take .own .lazy 0 0, .make k .lazy 0, .drop 0, .ask 1] →
      World.empty.run axis ops ≠ .ub := by
  intro h
  have key : (World.empty.run axis [.line [0, 10, 30], .take .own .lazy 0 0, .make .point .lazy 0, .drop 0, .ask 1]).map view
      = .ub := by decide +kernel
  have := h .point _ rfl
  cases e : World.empty.run axis [.line [0, 10, 30], .take .own .lazy 0 0, .make .point .lazy 0, .drop 0, .ask 1] with
  | ok w => rw [e] at key; cases key
  | throws => rw [e] at key; cases key
  | ub => exact this e

/-- It is false that a segment that was declared can be assigned to: the points of a pointing one that points nowhere are written
to. -/
theorem nowhere_fails :
    ¬ ∀ (st : Style) (ops : List (Op Nat)), ops = [.line [0, 10, 30], .take .own st 0 0, .null st, .assign 1 0] →
      World.empty.run axis ops ≠ .ub := by
  intro h
  have key : (World.empty.run axis [.line [0, 10, 30], .take .own .eager 0 0, .null .eager, .assign 1 0]).map view
      = .ub := by decide +kernel
  have := h .eager _ rfl
  cases e : World.empty.run axis [.line [0, 10, 30], .take .own .eager 0 0, .null .eager, .assign 1 0] with
  | ok w => rw [e] at key; cases key
  | throws => rw [e] at key; cases key
  | ub => exact this e

/-- The answer of the first variable. -/
def answer (w : World Nat Nat Nat) : Outcome (Cell Nat × Cell Nat) :=
  match w.seg 0 with
  | some s => (w.ask axis s).map Prod.fst
  | none => .throws

/-- It is false that segments always answer with the length of their points: not after a plain segment is assigned to one that
holds values, not after the point of the line is set, and not after another segment of the line is assigned to. -/
theorem stale_fails :
    (World.empty.run axis [.line [0, 10, 30], .take .own .eager 0 0, .take .own .plain 0 1, .assign 0 1]).map
      (fun w => (view w, answer w)) =
      .ok (([some 0, some 10, some 30], [.ok (10, 30), .ok (10, 30)]), .ok (.val 10, .val 90)) ∧
    (World.empty.run axis [.line [0, 10, 30], .take .refer .lazy 0 0, .ask 0, .set 0 0 25]).map (fun w => (view w, answer w)) =
      .ok (([some 25, some 10, some 30], [.ok (25, 10)]), .ok (.val 10, .val 90)) ∧
    (World.empty.run axis [.line [0, 10, 30, 70], .take .refer .eager 0 1, .take .own .eager 0 2, .take .refer .eager 0 0,
      .assign 2 1]).map (fun w => (view w, answer w)) =
      .ok (([some 30, some 70, some 30, some 70], [.ok (70, 30), .ok (30, 70), .ok (30, 70)]), .ok (.val 20, .val 90)) := by
  refine ⟨?_, ?_, ?_⟩ <;> decide +kernel

/-- `own_kept`: the line is changed and ends, another segment of it is taken; the segment keeps its points. -/
example : ∃ w w', World.empty.run axis [.line [0, 10, 30], .take .own .lazy 0 0] = .ok w ∧
    w.run axis [.set 0 0 99, .take .refer .eager 0 0, .ask 0, .make .own .eager 0, .assign 2 0, .drop 1, .dropLine 0] = .ok w' ∧
    ∃ s, w.seg 0 = some s ∧ s.kind = .own ∧ Alone w 0 ∧
    (∀ op ∈ ([.set 0 0 99, .take .refer .eager 0 0, .ask 0, .make .own .eager 0, .assign 2 0, .drop 1, .dropLine 0] : List (Op Nat)),
      Leaves 0 op) ∧ w'.points s = .ok (0, 10) := by
  refine ⟨_, _, rfl, rfl, _, rfl, rfl, ?_, ?_, rfl⟩
  · intro s hs i r hi hr
    cases i with
    | zero => exact absurd rfl hi
    | succ i => cases hr
  · intro op h
    simp only [List.mem_cons, List.not_mem_nil, or_false] at h
    rcases h with rfl | rfl | rfl | rfl | rfl | rfl | rfl <;> simp [Leaves]

/-- `make_exact`, `made_alone`: a copy that owns its points, of a segment by reference. -/
example : ∃ w w', World.empty.run axis (road .eager) = .ok w ∧ w.step axis (.make .own .lazy 1) = .ok w' ∧
    view w' = ([some 0, some 10, some 30], [.ok (0, 10), .ok (10, 30), .ok (10, 30)]) :=
  ⟨_, _, rfl, rfl, by decide +kernel⟩

/-- `assign_exact`, `assign_own`: an owning segment is assigned one by reference. -/
example : ∃ w w', World.empty.run axis [.line [0, 10, 30], .take .own .eager 0 0, .take .refer .lazy 0 1] = .ok w ∧
    w.step axis (.assign 0 1) = .ok w' ∧ view w' = ([some 0, some 10, some 30], [.ok (10, 30), .ok (10, 30)]) ∧
    answer w' = .ok (.val 20, .val 90) :=
  ⟨_, _, rfl, rfl, by decide +kernel, by decide +kernel⟩

/-- A program that is tidy and careful: references to a line are asked, copied and pointed to; an owner is assigned to. -/
def walk : List (Op Nat) :=
  [.line [0, 10, 30], .take .refer .lazy 0 0, .take .own .eager 0 1, .null .lazy, .make .point .lazy 0, .assign 2 3, .ask 2,
    .assign 1 0]

example : (World.empty.run axis walk).map (fun w => (view w, w.segs.map fun s => s.map (fun s => (s.length, s.azimuth)))) =
    .ok (([some 0, some 10, some 30], [.ok (0, 10), .ok (0, 10), .ok (0, 10), .ok (0, 10)]),
      [some (.val 10, .val 90), some (.val 10, .val 90), some (.val 10, .val 90), some (.uninit, .uninit)]) := by
  rfl

example : Throughout axis Tidy World.empty walk := by
  refine ⟨trivial, fun _ h => ?_⟩; cases h
  refine ⟨by simp only [Tidy]; decide, fun _ h => ?_⟩; cases h
  refine ⟨by simp only [Tidy]; decide, fun _ h => ?_⟩; cases h
  refine ⟨trivial, fun _ h => ?_⟩; cases h
  refine ⟨⟨_, rfl, by decide⟩, fun _ h => ?_⟩; cases h
  refine ⟨⟨_, _, rfl, rfl, by decide, .inr ⟨rfl, rfl⟩⟩, fun _ h => ?_⟩; cases h
  refine ⟨⟨_, rfl, by decide⟩, fun _ h => ?_⟩; cases h
  refine ⟨⟨_, _, rfl, rfl, by decide, .inl (by decide)⟩, fun _ h => ?_⟩; cases h
  trivial

example : Throughout axis Careful World.empty walk := by
  refine ⟨trivial, fun _ h => ?_⟩; cases h
  refine ⟨trivial, fun _ h => ?_⟩; cases h
  refine ⟨trivial, fun _ h => ?_⟩; cases h
  refine ⟨trivial, fun _ h => ?_⟩; cases h
  refine ⟨trivial, fun _ h => ?_⟩; cases h
  refine ⟨?_, fun _ h => ?_⟩
  · rintro t s ht hs; cases ht; cases hs
    exact ⟨.inl ⟨rfl, rfl⟩, fun h => by cases h⟩
  cases h
  refine ⟨trivial, fun _ h => ?_⟩; cases h
  refine ⟨?_, fun _ h => ?_⟩
  · rintro t s ht hs; cases ht; cases hs
    refine ⟨.inr ?_, fun h => by cases h⟩
    intro i r hi hr _
    match i, hi, hr with
    | 0, _, hr => cases hr; decide
    | 2, _, hr => cases hr; decide
    | 3, _, hr => cases hr; decide
    | i + 4, _, hr => cases hr
  cases h
  trivial

/-- `line_kept_partial`: the line of this program keeps its points. -/
example : ∃ w, World.empty.run axis [.line [0, 10, 30]] = .ok w ∧ 0 < w.lines.length ∧
    Throughout axis (Spares 0) w [.take .refer .lazy 0 0, .take .own .eager 0 1, .assign 1 0] := by
  refine ⟨_, rfl, by decide, ?_⟩
  refine ⟨trivial, fun _ h => ?_⟩; cases h
  refine ⟨trivial, fun _ h => ?_⟩; cases h
  refine ⟨?_, fun _ h => ?_⟩
  · rintro t s ht hs; cases ht; cases hs
    exact .inr ⟨by decide, by decide⟩
  cases h
  trivial

end MM.SegRef
