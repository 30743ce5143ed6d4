import Verif.Model.SegmentRef

/-!
# Segments that own their points, refer to them, or point to them (lemmas for C111)
-/

set_option autoImplicit false
set_option linter.unusedSectionVars false

namespace MM.SegRef

open Line (Cell Geo segLen segAz)

variable {P : Type} [DecidableEq P] {R A : Type} {G : Geo P R A}

/-! ### Variables -/

theorem World.seg_lt {w : World P R A} {j : Nat} {s : Seg R A} (h : w.seg j = some s) : j < w.segs.length := by
  rcases Nat.lt_or_ge j w.segs.length with hl | hl
  · exact hl
  · simp [World.seg, List.getElem?_eq_none hl] at h

theorem World.seg_put {w : World P R A} {j : Nat} (hj : j < w.segs.length) (s : Seg R A) (i : Nat) :
    (w.put j s).seg i = if i = j then some s else w.seg i := by
  unfold World.seg World.put
  by_cases h : i = j
  · subst h; simp [hj]
  · simp [List.getElem?_set_ne (Ne.symm h), h]

theorem World.seg_push (w : World P R A) (s : Seg R A) (i : Nat) :
    (w.push s).seg i = if i = w.segs.length then some s else w.seg i := by
  unfold World.seg World.push
  by_cases h : i = w.segs.length
  · subst h; simp
  · rcases Nat.lt_or_ge i w.segs.length with hl | hl
    · simp [List.getElem?_append_left hl, h]
    · have h1 : w.segs.length < i := by omega
      have h2 : (w.segs ++ [some s])[i]? = none := by
        apply List.getElem?_eq_none; simp; omega
      have h3 : w.segs[i]? = none := List.getElem?_eq_none hl
      simp [h2, h3, h]

@[simp] theorem World.put_mem (w : World P R A) (j : Nat) (s : Seg R A) : (w.put j s).mem = w.mem := rfl
@[simp] theorem World.put_next (w : World P R A) (j : Nat) (s : Seg R A) : (w.put j s).next = w.next := rfl
@[simp] theorem World.put_line (w : World P R A) (j : Nat) (s : Seg R A) : (w.put j s).line = w.line := rfl
@[simp] theorem World.put_len (w : World P R A) (j : Nat) (s : Seg R A) : (w.put j s).segs.length = w.segs.length := by
  simp [World.put]
@[simp] theorem World.push_mem (w : World P R A) (s : Seg R A) : (w.push s).mem = w.mem := rfl
@[simp] theorem World.push_next (w : World P R A) (s : Seg R A) : (w.push s).next = w.next := rfl
@[simp] theorem World.push_line (w : World P R A) (s : Seg R A) : (w.push s).line = w.line := rfl
@[simp] theorem World.alloc_seg (w : World P R A) (ps : List P) : (w.alloc ps).seg = w.seg := rfl
@[simp] theorem World.alloc_segs (w : World P R A) (ps : List P) : (w.alloc ps).segs = w.segs := rfl
@[simp] theorem World.alloc_line (w : World P R A) (ps : List P) : (w.alloc ps).line = w.line := rfl
@[simp] theorem World.alloc_next (w : World P R A) (ps : List P) : (w.alloc ps).next = w.next + ps.length := rfl

theorem World.read_ok {w : World P R A} {a : Nat} {p : P} : w.read a = .ok p ↔ w.mem a = some p := by
  unfold World.read; cases w.mem a <;> simp

theorem World.points_ok {w : World P R A} {s : Seg R A} {pq : P × P} :
    w.points s = .ok pq ↔ w.mem s.first = some pq.1 ∧ w.mem s.second = some pq.2 := by
  obtain ⟨p, q⟩ := pq
  unfold World.points World.read
  cases h1 : w.mem s.first <;> cases h2 : w.mem s.second <;> simp

theorem bind_eq_ok {α β : Type} {x : Outcome α} {f : α → Outcome β} {b : β} :
    x.bind f = .ok b ↔ ∃ a, x = .ok a ∧ f a = .ok b := by
  cases x <;> simp

theorem map_eq_ok {α β : Type} {x : Outcome α} {f : α → β} {b : β} :
    x.map f = .ok b ↔ ∃ a, x = .ok a ∧ f a = b := by
  cases x <;> simp

/-- The same kind and style, and the same points. -/
def Same (s t : Seg R A) : Prop :=
  t.kind = s.kind ∧ t.style = s.style ∧ t.first = s.first ∧ t.second = s.second

theorem Same.refl (s : Seg R A) : Same s s := ⟨rfl, rfl, rfl, rfl⟩

theorem Same.points {s t : Seg R A} (h : Same s t) (w : World P R A) : w.points t = w.points s := by
  unfold World.points; rw [h.2.2.1, h.2.2.2]

theorem Same.cells {s t : Seg R A} (h : Same s t) : t.cells = s.cells := by
  unfold Seg.cells; rw [h.1, h.2.2.1, h.2.2.2]

theorem computeLength_inv {w : World P R A} {s s' : Seg R A} (h : w.computeLength G s = .ok s') :
    Same s s' ∧ s'.azimuth = s.azimuth ∧
      ((s.length = .uninit ∧ ∃ pq, w.points s = .ok pq ∧ s'.length = segLen G pq) ∨
       (s.length ≠ .uninit ∧ s'.length = s.length)) := by
  unfold World.computeLength at h
  cases hl : s.length <;> simp [hl, Cell.isUninit] at h
  · rw [map_eq_ok] at h
    obtain ⟨pq, h1, rfl⟩ := h
    exact ⟨⟨rfl, rfl, rfl, rfl⟩, rfl, .inl ⟨rfl, pq, h1, rfl⟩⟩
  · subst h; exact ⟨.refl s, rfl, .inr ⟨by simp, hl⟩⟩
  · subst h; exact ⟨.refl s, rfl, .inr ⟨by simp, hl⟩⟩

theorem computeAzimuth_inv {w : World P R A} {s s' : Seg R A} (h : w.computeAzimuth G s = .ok s') :
    Same s s' ∧ s'.length = s.length ∧
      ((s.azimuth = .uninit ∧ ∃ pq, w.points s = .ok pq ∧ s'.azimuth = segAz G pq) ∨
       (s.azimuth ≠ .uninit ∧ s'.azimuth = s.azimuth)) := by
  unfold World.computeAzimuth at h
  cases hl : s.azimuth <;> simp [hl, Cell.isUninit] at h
  · rw [map_eq_ok] at h
    obtain ⟨pq, h1, rfl⟩ := h
    exact ⟨⟨rfl, rfl, rfl, rfl⟩, rfl, .inl ⟨rfl, pq, h1, rfl⟩⟩
  · subst h; exact ⟨.refl s, rfl, .inr ⟨by simp, hl⟩⟩
  · subst h; exact ⟨.refl s, rfl, .inr ⟨by simp, hl⟩⟩

theorem compute_inv {w : World P R A} {s s' : Seg R A} (h : w.compute G s = .ok s') :
    Same s s' ∧
      ((s.length = .uninit ∧ ∃ pq, w.points s = .ok pq ∧ s'.length = segLen G pq) ∨
       (s.length ≠ .uninit ∧ s'.length = s.length)) ∧
      ((s.azimuth = .uninit ∧ ∃ pq, w.points s = .ok pq ∧ s'.azimuth = segAz G pq) ∨
       (s.azimuth ≠ .uninit ∧ s'.azimuth = s.azimuth)) := by
  unfold World.compute at h
  rw [bind_eq_ok] at h
  obtain ⟨t, h1, h2⟩ := h
  obtain ⟨a1, a2, a3⟩ := computeLength_inv h1
  obtain ⟨b1, b2, b3⟩ := computeAzimuth_inv h2
  refine ⟨⟨b1.1.trans a1.1, b1.2.1.trans a1.2.1, b1.2.2.1.trans a1.2.2.1, b1.2.2.2.trans a1.2.2.2⟩, ?_, ?_⟩
  · rw [b2]; exact a3
  · rw [← a2, ← a1.points w]; exact b3

/-- Whatever is computed is defined as long as both points are there. -/
theorem compute_ok {w : World P R A} {s : Seg R A} {pq : P × P} (h : w.points s = .ok pq) :
    ∃ s', w.compute G s = .ok s' := by
  have h1 : ∃ t, w.computeLength G s = .ok t := by
    unfold World.computeLength
    split
    · rw [h]; exact ⟨_, rfl⟩
    · exact ⟨_, rfl⟩
  obtain ⟨t, ht⟩ := h1
  have h2 : w.points t = .ok pq := by rw [(computeLength_inv ht).1.points, h]
  unfold World.compute
  rw [ht]
  simp only [Outcome.bind_ok]
  unfold World.computeAzimuth
  split
  · rw [h2]; exact ⟨_, rfl⟩
  · exact ⟨_, rfl⟩

theorem ofPoints_inv {w w1 : World P R A} {k : Kind} {st : Style} {a b : Nat} {s : Seg R A}
    (h : w.ofPoints G k st a b = .ok (w1, s)) :
    ∃ p q, w.mem a = some p ∧ w.mem b = some q ∧ s.kind = k ∧ s.style = st ∧
      ((k = .own ∧ w1 = w.alloc [p, q] ∧ s.first = w.next ∧ s.second = w.next + 1) ∨
       (k ≠ .own ∧ w1 = w ∧ s.first = a ∧ s.second = b)) ∧
      ((st = .eager ∧ w1.compute G { s with length := .uninit, azimuth := .uninit } = .ok s) ∨
       (st ≠ .eager ∧ s.length = .uninit ∧ s.azimuth = .uninit)) := by
  unfold World.ofPoints at h
  rw [bind_eq_ok] at h
  obtain ⟨p, hp, h⟩ := h
  rw [bind_eq_ok] at h
  obtain ⟨q, hq, h⟩ := h
  rw [World.read_ok] at hp hq
  refine ⟨p, q, hp, hq, ?_⟩
  have fin : ∀ (w0 : World P R A) (s0 : Seg R A), s0.style = st → s0.length = .uninit → s0.azimuth = .uninit →
      World.ofPoints.finish G st w0 s0 = .ok (w1, s) → w1 = w0 ∧ Same s0 s ∧
      ((st = .eager ∧ w1.compute G { s with length := .uninit, azimuth := .uninit } = .ok s) ∨
       (st ≠ .eager ∧ s.length = .uninit ∧ s.azimuth = .uninit)) := by
    intro w0 s0 h1 h2 h3 hf
    unfold World.ofPoints.finish at hf
    cases st
    · simp at hf; obtain ⟨rfl, rfl⟩ := hf; exact ⟨rfl, .refl _, .inr ⟨by simp, h2, h3⟩⟩
    · simp at hf; obtain ⟨rfl, rfl⟩ := hf; exact ⟨rfl, .refl _, .inr ⟨by simp, h2, h3⟩⟩
    · simp only [map_eq_ok, Prod.mk.injEq] at hf
      obtain ⟨s1, hc, rfl, rfl⟩ := hf
      have hs := (compute_inv hc).1
      refine ⟨rfl, hs, .inl ⟨rfl, ?_⟩⟩
      have : ({ s1 with length := .uninit, azimuth := .uninit } : Seg R A) = s0 := by
        obtain ⟨e1, e2, e3, e4⟩ := hs
        cases s0; cases s1; simp_all
      rw [this]; exact hc
  cases k
  · obtain ⟨e1, e2, e3⟩ := fin _ _ rfl rfl rfl h
    exact ⟨e2.1, e2.2.1, .inl ⟨rfl, e1, e2.2.2.1, e2.2.2.2⟩, e3⟩
  · obtain ⟨e1, e2, e3⟩ := fin _ _ rfl rfl rfl h
    exact ⟨e2.1, e2.2.1, .inr ⟨by simp, e1, e2.2.2.1, e2.2.2.2⟩, e3⟩
  · obtain ⟨e1, e2, e3⟩ := fin _ _ rfl rfl rfl h
    exact ⟨e2.1, e2.2.1, .inr ⟨by simp, e1, e2.2.2.1, e2.2.2.2⟩, e3⟩

theorem convert_inv {w w1 : World P R A} {k : Kind} {s : Seg R A} {ab : Nat × Nat}
    (h : w.convert k s = .ok (w1, ab)) :
    (k = .own ∧ ∃ p q, w.points s = .ok (p, q) ∧ w1 = w.alloc [p, q] ∧ ab = (w.next, w.next + 1)) ∨
    (k ≠ .own ∧ w1 = w ∧ ab = (s.first, s.second) ∧ (s.kind = k ∨ ∃ pq, w.points s = .ok pq)) := by
  unfold World.convert at h
  cases k
  · simp only [map_eq_ok, Prod.mk.injEq] at h
    obtain ⟨⟨p, q⟩, h1, rfl, rfl⟩ := h
    exact .inl ⟨rfl, p, q, h1, rfl, rfl⟩
  · right
    simp only at h
    split at h
    · simp at h; exact ⟨by simp, h.1.symm, h.2.symm, .inl ‹_›⟩
    · simp only [map_eq_ok, Prod.mk.injEq] at h
      obtain ⟨pq, h1, rfl, rfl⟩ := h
      exact ⟨by simp, rfl, rfl, .inr ⟨pq, h1⟩⟩
  · right
    simp only at h
    split at h
    · simp at h; exact ⟨by simp, h.1.symm, h.2.symm, .inl ‹_›⟩
    · simp only [map_eq_ok, Prod.mk.injEq] at h
      obtain ⟨pq, h1, rfl, rfl⟩ := h
      exact ⟨by simp, rfl, rfl, .inr ⟨pq, h1⟩⟩

/-- What the values of a newly built segment are. -/
def Taken (G : Geo P R A) (w w1 : World P R A) (st : Style) (s t s' : Seg R A) : Prop :=
  (st = .plain ∧ t.length = .uninit ∧ t.azimuth = .uninit ∧ s' = s) ∨
  (st = .lazy ∧ s.style = .plain ∧ t.length = .uninit ∧ t.azimuth = .uninit ∧ s' = s) ∨
  (st ≠ .plain ∧ s.style ≠ .plain ∧ t.length = s'.length ∧ t.azimuth = s'.azimuth ∧
    ((s' = s ∧ (st = .lazy ∨ s.style = .eager)) ∨ (st = .eager ∧ s.style = .lazy ∧ w.compute G s = .ok s'))) ∨
  (st = .eager ∧ s.style = .plain ∧ s' = s ∧
    w1.compute G { t with length := .uninit, azimuth := .uninit } = .ok t)

theorem construct_inv {w w1 : World P R A} {k : Kind} {st : Style} {s t s' : Seg R A}
    (h : w.construct G k st s = .ok (w1, t, s')) :
    t.kind = k ∧ t.style = st ∧ Same s s' ∧
      ((k = .own ∧ ∃ p q, w.points s = .ok (p, q) ∧ w1 = w.alloc [p, q] ∧ t.first = w.next ∧ t.second = w.next + 1) ∨
       (k ≠ .own ∧ w1 = w ∧ t.first = s.first ∧ t.second = s.second ∧ (s.kind = k ∨ ∃ pq, w.points s = .ok pq))) ∧
      Taken G w w1 st s t s' := by
  have conv : ∀ {s0 : Seg R A} {w0 : World P R A} {ab : Nat × Nat}, Same s s0 → w.convert k s0 = .ok (w0, ab) →
      (k = .own ∧ ∃ p q, w.points s = .ok (p, q) ∧ w0 = w.alloc [p, q] ∧ ab.1 = w.next ∧ ab.2 = w.next + 1) ∨
       (k ≠ .own ∧ w0 = w ∧ ab.1 = s.first ∧ ab.2 = s.second ∧ (s.kind = k ∨ ∃ pq, w.points s = .ok pq)) := by
    intro s0 w0 ab hs hc
    rcases convert_inv hc with ⟨h1, p, q, h2, h3, h4⟩ | ⟨h1, h2, h3, h4⟩
    · rw [hs.points] at h2
      exact .inl ⟨h1, p, q, h2, h3, by rw [h4], by rw [h4]⟩
    · rw [hs.points, hs.1] at h4
      exact .inr ⟨h1, h2, by rw [h3]; exact hs.2.2.1, by rw [h3]; exact hs.2.2.2, h4⟩
  unfold World.construct at h
  split at h
  · simp only [map_eq_ok, Prod.mk.injEq] at h
    obtain ⟨⟨w0, ab⟩, hc, rfl, rfl, rfl⟩ := h
    exact ⟨rfl, rfl, .refl _, conv (.refl _) hc, .inl ⟨rfl, rfl, rfl, rfl⟩⟩
  · rename_i hs
    simp only [map_eq_ok, Prod.mk.injEq] at h
    obtain ⟨⟨w0, ab⟩, hc, rfl, rfl, rfl⟩ := h
    exact ⟨rfl, rfl, .refl _, conv (.refl _) hc, .inr (.inl ⟨rfl, hs, rfl, rfl, rfl⟩)⟩
  · rename_i hs
    simp only [map_eq_ok, Prod.mk.injEq] at h
    obtain ⟨⟨w0, ab⟩, hc, rfl, rfl, rfl⟩ := h
    exact ⟨rfl, rfl, .refl _, conv (.refl _) hc, .inr (.inr (.inl ⟨by simp, hs, rfl, rfl, .inl ⟨rfl, .inl rfl⟩⟩))⟩
  · rename_i hs
    simp only [bind_eq_ok, map_eq_ok, Prod.mk.injEq] at h
    obtain ⟨⟨w0, ab⟩, hc, t0, ht, rfl, rfl, rfl⟩ := h
    obtain ⟨e1, e2, e3, e4⟩ := (compute_inv ht).1
    have hc' := conv (.refl _) hc
    refine ⟨e1, e2, .refl _, ?_, .inr (.inr (.inr ⟨rfl, hs, rfl, ?_⟩))⟩
    · simp only at e3 e4 hc' ⊢; rw [e3, e4]; exact hc'
    · have : ({ t0 with length := .uninit, azimuth := .uninit } : Seg R A) = ⟨k, .eager, ab.1, ab.2, .uninit, .uninit⟩ := by
        cases t0; simp_all
      rw [this]; exact ht
  · rename_i hs
    simp only [bind_eq_ok, map_eq_ok, Prod.mk.injEq] at h
    obtain ⟨s0, hs0, ⟨w0, ab⟩, hc, rfl, rfl, rfl⟩ := h
    have hsame := (compute_inv hs0).1
    exact ⟨rfl, rfl, hsame, conv hsame hc,
      .inr (.inr (.inl ⟨by simp, by rw [hs]; simp, rfl, rfl, .inr ⟨rfl, hs, hs0⟩⟩))⟩
  · rename_i hs
    simp only [map_eq_ok, Prod.mk.injEq] at h
    obtain ⟨⟨w0, ab⟩, hc, rfl, rfl, rfl⟩ := h
    exact ⟨rfl, rfl, .refl _, conv (.refl _) hc,
      .inr (.inr (.inl ⟨by simp, by rw [hs]; simp, rfl, rfl, .inl ⟨rfl, .inr hs⟩⟩))⟩

/-- Both points are written to, one after the other. -/
def Written (w w1 : World P R A) (t s : Seg R A) : Prop :=
  ∃ p q, w.mem s.first = some p ∧ w.mem t.first ≠ none ∧
    (if s.second = t.first then some p else w.mem s.second) = some q ∧
    w.mem t.second ≠ none ∧
    w1 = { w with mem := fun b => if b = t.second then some q else if b = t.first then some p else w.mem b }

theorem write_inv {w w1 : World P R A} {a : Nat} {p : P} (h : w.write a p = .ok w1) :
    w.mem a ≠ none ∧ w1 = { w with mem := fun b => if b = a then some p else w.mem b } := by
  unfold World.write at h
  cases hm : w.mem a <;> simp [hm] at h
  exact ⟨by simp, h.symm⟩

theorem assignPoints_inv {w w1 : World P R A} {t s t' : Seg R A} (h : w.assignPoints t s = .ok (w1, t')) :
    (rebinds t s = true ∧ w1 = w ∧ t' = { t with first := s.first, second := s.second }) ∨
    (rebinds t s = false ∧ t' = t ∧ Written w w1 t s) := by
  unfold World.assignPoints at h
  split at h
  · simp only [Outcome.ok.injEq, Prod.mk.injEq] at h
    exact .inl ⟨‹_›, h.1.symm, h.2.symm⟩
  · simp only [bind_eq_ok, map_eq_ok, Prod.mk.injEq] at h
    obtain ⟨p, hp, w2, hw2, q, hq, w3, hw3, rfl, rfl⟩ := h
    obtain ⟨a1, rfl⟩ := write_inv hw2
    obtain ⟨b1, rfl⟩ := write_inv hw3
    rw [World.read_ok] at hp hq
    refine .inr ⟨by simp_all, rfl, p, q, hp, a1, hq, ?_, rfl⟩
    simp only at b1
    split at b1
    · rename_i e; rw [e]; exact a1
    · exact b1

/-- What the values of a segment assigned to are. -/
def Assigned (G : Geo P R A) (w1 : World P R A) (t s t' s' : Seg R A) : Prop :=
  (t.style = .plain ∧ s' = s) ∨
  (t.style = .lazy ∧ s.style = .plain ∧ t'.length = t.length ∧ t'.azimuth = t.azimuth ∧ s' = s) ∨
  (t.style ≠ .plain ∧ s.style ≠ .plain ∧ t'.length = s'.length ∧ t'.azimuth = s'.azimuth ∧
    ((s' = s ∧ (t.style = .lazy ∨ s.style = .eager)) ∨ (t.style = .eager ∧ s.style = .lazy ∧ w1.compute G s = .ok s'))) ∨
  (t.style = .eager ∧ s.style = .plain ∧ s' = s ∧
    w1.compute G { t' with length := t.length, azimuth := t.azimuth } = .ok t')

theorem assign_inv {w w1 : World P R A} {t s t' s' : Seg R A} (h : w.assign G t s = .ok (w1, t', s')) :
    t'.kind = t.kind ∧ t'.style = t.style ∧ Same s s' ∧
      ((rebinds t s = true ∧ w1 = w ∧ t'.first = s.first ∧ t'.second = s.second) ∨
       (rebinds t s = false ∧ t'.first = t.first ∧ t'.second = t.second ∧ Written w w1 t s)) ∧
      Assigned G w1 t s t' s' := by
  have hb : rebinds (takeData t s) s = rebinds t s := rfl
  unfold World.assign at h
  split at h
  · rename_i ht
    simp only [map_eq_ok, Prod.mk.injEq] at h
    obtain ⟨⟨w0, t0⟩, h1, rfl, rfl, rfl⟩ := h
    rcases assignPoints_inv h1 with ⟨a, b, c⟩ | ⟨a, b, c⟩
    · subst b c
      exact ⟨rfl, rfl, .refl _, .inl ⟨a, rfl, rfl, rfl⟩, .inl ⟨ht, rfl⟩⟩
    · subst b
      exact ⟨rfl, rfl, .refl _, .inr ⟨a, rfl, rfl, c⟩, .inl ⟨ht, rfl⟩⟩
  · rename_i ht hs
    simp only [map_eq_ok, Prod.mk.injEq] at h
    obtain ⟨⟨w0, t0⟩, h1, rfl, rfl, rfl⟩ := h
    rcases assignPoints_inv h1 with ⟨a, b, c⟩ | ⟨a, b, c⟩
    · subst b c
      exact ⟨rfl, rfl, .refl _, .inl ⟨a, rfl, rfl, rfl⟩, .inr (.inl ⟨ht, hs, rfl, rfl, rfl⟩)⟩
    · subst b
      exact ⟨rfl, rfl, .refl _, .inr ⟨a, rfl, rfl, c⟩, .inr (.inl ⟨ht, hs, rfl, rfl, rfl⟩)⟩
  · rename_i ht hs
    simp only [map_eq_ok, Prod.mk.injEq] at h
    obtain ⟨⟨w0, t0⟩, h1, rfl, rfl, rfl⟩ := h
    have hn : t.style ≠ .plain := by rw [ht]; simp
    rcases assignPoints_inv h1 with ⟨a, b, c⟩ | ⟨a, b, c⟩
    · subst b c
      exact ⟨rfl, rfl, .refl _, .inl ⟨a, rfl, rfl, rfl⟩, .inr (.inr (.inl ⟨hn, hs, rfl, rfl, .inl ⟨rfl, .inl ht⟩⟩))⟩
    · subst b
      exact ⟨rfl, rfl, .refl _, .inr ⟨a, rfl, rfl, c⟩, .inr (.inr (.inl ⟨hn, hs, rfl, rfl, .inl ⟨rfl, .inl ht⟩⟩))⟩
  · rename_i ht hs
    simp only [bind_eq_ok, map_eq_ok, Prod.mk.injEq] at h
    obtain ⟨⟨w0, t0⟩, h1, t1, h2, rfl, rfl, rfl⟩ := h
    obtain ⟨e1, e2, e3, e4⟩ := (compute_inv h2).1
    simp only at h2 e1 e2 e3 e4
    rcases assignPoints_inv h1 with ⟨a, b, c⟩ | ⟨a, b, c⟩
    · subst b c
      refine ⟨e1, e2, .refl _, .inl ⟨a, rfl, e3, e4⟩, .inr (.inr (.inr ⟨ht, hs, rfl, ?_⟩))⟩
      have : ({ t1 with length := t.length, azimuth := t.azimuth } : Seg R A) =
          { t with first := s.first, second := s.second } := by cases t1; cases t; simp_all
      rw [this]; exact h2
    · subst b
      refine ⟨e1, e2, .refl _, .inr ⟨a, e3, e4, c⟩, .inr (.inr (.inr ⟨ht, hs, rfl, ?_⟩))⟩
      have : ({ t1 with length := t0.length, azimuth := t0.azimuth } : Seg R A) = t0 := by cases t1; cases t0; simp_all
      rw [this]; exact h2
  · rename_i ht hs
    simp only [bind_eq_ok, map_eq_ok, Prod.mk.injEq] at h
    obtain ⟨⟨w0, t0⟩, h1, s1, h2, rfl, rfl, rfl⟩ := h
    have hn : t.style ≠ .plain := by rw [ht]; simp
    have hn' : s.style ≠ .plain := by rw [hs]; simp
    rcases assignPoints_inv h1 with ⟨a, b, c⟩ | ⟨a, b, c⟩
    · subst b c
      exact ⟨rfl, rfl, (compute_inv h2).1, .inl ⟨a, rfl, rfl, rfl⟩,
        .inr (.inr (.inl ⟨hn, hn', rfl, rfl, .inr ⟨ht, hs, h2⟩⟩))⟩
    · subst b
      exact ⟨rfl, rfl, (compute_inv h2).1, .inr ⟨a, rfl, rfl, c⟩,
        .inr (.inr (.inl ⟨hn, hn', rfl, rfl, .inr ⟨ht, hs, h2⟩⟩))⟩
  · rename_i ht hs
    simp only [map_eq_ok, Prod.mk.injEq] at h
    obtain ⟨⟨w0, t0⟩, h1, rfl, rfl, rfl⟩ := h
    have hn : t.style ≠ .plain := by rw [ht]; simp
    have hn' : s.style ≠ .plain := by rw [hs]; simp
    rcases assignPoints_inv h1 with ⟨a, b, c⟩ | ⟨a, b, c⟩
    · subst b c
      exact ⟨rfl, rfl, .refl _, .inl ⟨a, rfl, rfl, rfl⟩, .inr (.inr (.inl ⟨hn, hn', rfl, rfl, .inl ⟨rfl, .inr hs⟩⟩))⟩
    · subst b
      exact ⟨rfl, rfl, .refl _, .inr ⟨a, rfl, rfl, c⟩, .inr (.inr (.inl ⟨hn, hn', rfl, rfl, .inl ⟨rfl, .inr hs⟩⟩))⟩

/-! ### What holds in every state a program reaches -/

/-- What lies where: no point is in use twice, and lines and owning segments have their points. -/
structure Inv (w : World P R A) : Prop where
  zero : w.mem 0 = none
  pos : 1 ≤ w.next
  fresh : ∀ a, w.next ≤ a → w.mem a = none
  addr : ∀ j s, w.seg j = some s → s.first < w.next ∧ s.second < w.next
  dist : ∀ j s, w.seg j = some s → (s.first ≠ s.second ∧ s.first ≠ 0 ∧ s.second ≠ 0) ∨ (s.first = 0 ∧ s.second = 0)
  lineA : ∀ l a, a ∈ w.line l → w.mem a ≠ none
  lineN : ∀ l, (w.line l).Nodup
  lineD : ∀ l m a, a ∈ w.line l → a ∈ w.line m → l = m
  ownA : ∀ j s, w.seg j = some s → ∀ a, a ∈ s.cells → w.mem a ≠ none
  ownD : ∀ j s i t, w.seg j = some s → w.seg i = some t → ∀ a, a ∈ s.cells → a ∈ t.cells → i = j
  ownL : ∀ j s, w.seg j = some s → ∀ a, a ∈ s.cells → ∀ l, a ∉ w.line l

theorem Inv.alive_lt {w : World P R A} (h : Inv w) {a : Nat} (ha : w.mem a ≠ none) : a < w.next := by
  rcases Nat.lt_or_ge a w.next with hl | hl
  · exact hl
  · exact absurd (h.fresh a hl) ha

theorem inv_empty : Inv (World.empty : World P R A) where
  zero := rfl
  pos := Nat.le_refl _
  fresh := fun _ _ => rfl
  addr := by intro j s h; simp [World.seg, World.empty] at h
  dist := by intro j s h; simp [World.seg, World.empty] at h
  lineA := by intro l a h; simp [World.line, World.empty] at h
  lineN := by intro l; simp [World.line, World.empty]
  lineD := by intro l m a h; simp [World.line, World.empty] at h
  ownA := by intro j s h; simp [World.seg, World.empty] at h
  ownD := by intro j s i t h; simp [World.seg, World.empty] at h
  ownL := by intro j s h; simp [World.seg, World.empty] at h

/-- A variable changes that owns nothing or keeps its points. -/
theorem inv_put {w : World P R A} {j : Nat} {s s' : Seg R A} (h : Inv w) (hs : w.seg j = some s)
    (hc : s'.cells = s.cells ∨ s'.cells = []) (ha : s'.first < w.next ∧ s'.second < w.next)
    (hd : (s'.first ≠ s'.second ∧ s'.first ≠ 0 ∧ s'.second ≠ 0) ∨ (s'.first = 0 ∧ s'.second = 0)) : Inv (w.put j s') := by
  have hseg := World.seg_put (World.seg_lt hs) s'
  have sub : ∀ a, a ∈ s'.cells → a ∈ s.cells := by
    intro a h'; rcases hc with e | e <;> rw [e] at h'
    · exact h'
    · cases h'
  refine ⟨h.zero, h.pos, h.fresh, ?_, ?_, h.lineA, h.lineN, h.lineD, ?_, ?_, ?_⟩
  · intro i t ht; rw [hseg] at ht; split at ht
    · cases ht; exact ha
    · exact h.addr i t ht
  · intro i t ht; rw [hseg] at ht; split at ht
    · cases ht; exact hd
    · exact h.dist i t ht
  · intro i t ht a hm; rw [hseg] at ht; split at ht
    · cases ht; exact h.ownA j s hs a (sub a hm)
    · exact h.ownA i t ht a hm
  · intro i t i' t' ht ht' a hm hm'
    rw [hseg] at ht ht'
    split at ht <;> split at ht'
    · omega
    · cases ht; rename_i e _; subst e; exact h.ownD i s i' t' hs ht' a (sub a hm) hm'
    · cases ht'; rename_i _ e; subst e; exact h.ownD i t i' s ht hs a hm (sub a hm')
    · exact h.ownD i t i' t' ht ht' a hm hm'
  · intro i t ht a hm; rw [hseg] at ht; split at ht
    · cases ht; exact h.ownL j s hs a (sub a hm)
    · exact h.ownL i t ht a hm

theorem inv_same {w : World P R A} {j : Nat} {s s' : Seg R A} (h : Inv w) (hs : w.seg j = some s) (e : Same s s') :
    Inv (w.put j s') :=
  inv_put h hs (.inl e.cells) (by rw [e.2.2.1, e.2.2.2]; exact h.addr j s hs)
    (by rw [e.2.2.1, e.2.2.2]; exact h.dist j s hs)

/-- A new variable that refers to points. -/
theorem inv_push {w : World P R A} {t : Seg R A} (h : Inv w) (hk : t.kind ≠ .own)
    (ha : t.first < w.next ∧ t.second < w.next) (hd : (t.first ≠ t.second ∧ t.first ≠ 0 ∧ t.second ≠ 0) ∨ (t.first = 0 ∧ t.second = 0)) :
    Inv (w.push t) := by
  have hseg := World.seg_push w t
  have hc : t.cells = [] := by simp [Seg.cells, hk]
  refine ⟨h.zero, h.pos, h.fresh, ?_, ?_, h.lineA, h.lineN, h.lineD, ?_, ?_, ?_⟩
  · intro i s hs; rw [hseg] at hs; split at hs
    · cases hs; exact ha
    · exact h.addr i s hs
  · intro i s hs; rw [hseg] at hs; split at hs
    · cases hs; exact hd
    · exact h.dist i s hs
  · intro i s hs a hm; rw [hseg] at hs; split at hs
    · cases hs; rw [hc] at hm; cases hm
    · exact h.ownA i s hs a hm
  · intro i s i' s' hs hs' a hm hm'
    rw [hseg] at hs hs'
    split at hs
    · cases hs; rw [hc] at hm; cases hm
    · split at hs'
      · cases hs'; rw [hc] at hm'; cases hm'
      · exact h.ownD i s i' s' hs hs' a hm hm'
  · intro i s hs a hm; rw [hseg] at hs; split at hs
    · cases hs; rw [hc] at hm; cases hm
    · exact h.ownL i s hs a hm

theorem alloc_old {w : World P R A} {ps : List P} {a : Nat} (h : a < w.next) : (w.alloc ps).mem a = w.mem a := by
  simp only [World.alloc]; rw [if_neg (by omega)]

theorem alloc_new {w : World P R A} {ps : List P} {i : Nat} (h : i < ps.length) :
    (w.alloc ps).mem (w.next + i) = some ps[i] := by
  simp only [World.alloc]; rw [if_pos (by omega)]
  simp [h]

/-- A new variable that owns its points. -/
theorem inv_push_own {w : World P R A} {t : Seg R A} {p q : P} (h : Inv w)
    (h1 : t.first = w.next) (h2 : t.second = w.next + 1) : Inv ((w.alloc [p, q]).push t) := by
  have hseg := World.seg_push (w.alloc [p, q]) t
  simp only [World.alloc_seg] at hseg
  have hc : ∀ a, a ∈ t.cells → w.next ≤ a ∧ (w.alloc [p, q]).mem a ≠ none := by
    intro a ha
    have : a = w.next ∨ a = w.next + 1 := by
      unfold Seg.cells at ha; split at ha
      · simpa [h1, h2] using ha
      · cases ha
    rcases this with rfl | rfl
    · have := alloc_new (w := w) (ps := [p, q]) (i := 0) (by simp)
      simp at this; simp [this]
    · have := alloc_new (w := w) (ps := [p, q]) (i := 1) (by simp)
      simp [this]
  have old : ∀ a, w.mem a ≠ none → (w.alloc [p, q]).mem a ≠ none := by
    intro a ha; rw [alloc_old (h.alive_lt ha)]; exact ha
  have hp := h.pos
  refine ⟨?_, ?_, ?_, ?_, ?_, ?_, h.lineN, h.lineD, ?_, ?_, ?_⟩
  · show (w.alloc [p, q]).mem 0 = none
    rw [alloc_old (by omega)]; exact h.zero
  · show 1 ≤ (w.alloc [p, q]).next
    simp
  · intro a ha
    have ha' : w.next + 2 ≤ a := ha
    show (w.alloc [p, q]).mem a = none
    simp only [World.alloc]; rw [if_neg (by simp; omega)]; exact h.fresh a (by omega)
  · intro i s hs; rw [hseg] at hs
    show s.first < w.next + 2 ∧ s.second < w.next + 2
    split at hs
    · cases hs; omega
    · have := h.addr i s hs; omega
  · intro i s hs; rw [hseg] at hs; split at hs
    · cases hs; left; omega
    · exact h.dist i s hs
  · intro l a ha; exact old a (h.lineA l a ha)
  · intro i s hs a hm; rw [hseg] at hs; split at hs
    · cases hs; exact (hc a hm).2
    · exact old a (h.ownA i s hs a hm)
  · intro i s i' s' hs hs' a hm hm'
    rw [hseg] at hs hs'
    split at hs <;> split at hs'
    · omega
    · cases hs; have := h.alive_lt (h.ownA i' s' hs' a hm'); have := (hc a hm).1; omega
    · cases hs'; have := h.alive_lt (h.ownA i s hs a hm); have := (hc a hm').1; omega
    · exact h.ownD i s i' s' hs hs' a hm hm'
  · intro i s hs a hm l hl; rw [hseg] at hs
    have := h.alive_lt (h.lineA l a hl)
    split at hs
    · cases hs; have := (hc a hm).1; omega
    · exact h.ownL i s hs a hm l hl

/-- Points are written to. -/
theorem inv_mem {w : World P R A} {m : Nat → Option P} (h : Inv w) (hm : ∀ a, m a = none ↔ w.mem a = none) :
    Inv { w with mem := m } :=
  ⟨(hm 0).2 h.zero, h.pos, fun a ha => (hm a).2 (h.fresh a ha), h.addr, h.dist,
    fun l a ha e => h.lineA l a ha ((hm a).1 e), h.lineN, h.lineD,
    fun j s hs a ha e => h.ownA j s hs a ha ((hm a).1 e), h.ownD, h.ownL⟩

theorem inv_write {w w1 : World P R A} {a : Nat} {p : P} (h : Inv w) (hw : w.write a p = .ok w1) : Inv w1 := by
  obtain ⟨h1, rfl⟩ := write_inv hw
  apply inv_mem h
  intro b
  split
  · rename_i e; subst e; simp [h1]
  · exact Iff.rfl

theorem inv_written {w w1 : World P R A} {t s : Seg R A} (h : Inv w) (hw : Written w w1 t s) : Inv w1 := by
  obtain ⟨p, q, _, h2, _, h4, rfl⟩ := hw
  apply inv_mem h
  intro b
  split
  · rename_i e; subst e; simp [h4]
  · split
    · rename_i e; subst e; simp [h2]
    · exact Iff.rfl

theorem line_new {w : World P R A} {ps : List P} (l : Nat) :
    World.line { w.alloc ps with lines := w.lines ++ [(List.range ps.length).map (w.next + ·)] } l =
      if l = w.lines.length then (List.range ps.length).map (w.next + ·) else w.line l := by
  unfold World.line
  by_cases h : l = w.lines.length
  · subst h; simp
  · rcases Nat.lt_or_ge l w.lines.length with hl | hl
    · simp [List.getElem?_append_left hl, h]
    · have h2 : (w.lines ++ [(List.range ps.length).map (w.next + ·)])[l]? = none := by
        apply List.getElem?_eq_none; simp; omega
      simp [h2, List.getElem?_eq_none hl, h]

theorem line_dropped {w : World P R A} (l m : Nat) (mem : Nat → Option P) :
    World.line { w with mem := mem, lines := w.lines.set l [] } m = if m = l then [] else w.line m := by
  unfold World.line
  by_cases h : m = l
  · subst h
    rcases Nat.lt_or_ge m w.lines.length with hl | hl
    · simp [hl]
    · have : (w.lines.set m [])[m]? = none := List.getElem?_eq_none (by simpa using hl)
      simp [this]
  · simp [List.getElem?_set_ne (Ne.symm h), h]

theorem seg_dropped {w : World P R A} (j i : Nat) (mem : Nat → Option P) :
    World.seg { w with mem := mem, segs := w.segs.set j none } i = if i = j then none else w.seg i := by
  unfold World.seg
  by_cases h : i = j
  · subst h
    rcases Nat.lt_or_ge i w.segs.length with hl | hl
    · simp [hl]
    · have : (w.segs.set i none)[i]? = none := List.getElem?_eq_none (by simpa using hl)
      simp [this]
  · simp [List.getElem?_set_ne (Ne.symm h), h]

theorem mem_range_map {n a k : Nat} : a ∈ (List.range k).map (n + ·) ↔ n ≤ a ∧ a < n + k := by
  simp only [List.mem_map, List.mem_range]
  constructor
  · rintro ⟨x, hx, rfl⟩; omega
  · rintro ⟨h1, h2⟩; exact ⟨a - n, by omega, by omega⟩

theorem inv_line {w : World P R A} {ps : List P} (h : Inv w) :
    Inv { w.alloc ps with lines := w.lines ++ [(List.range ps.length).map (w.next + ·)] } := by
  have old : ∀ a, w.mem a ≠ none → (w.alloc ps).mem a ≠ none := by
    intro a ha; rw [alloc_old (h.alive_lt ha)]; exact ha
  have hp := h.pos
  refine ⟨?_, ?_, ?_, ?_, h.dist, ?_, ?_, ?_, ?_, h.ownD, ?_⟩
  · show (w.alloc ps).mem 0 = none
    rw [alloc_old (by omega)]; exact h.zero
  · show 1 ≤ w.next + ps.length
    omega
  · intro a ha
    have ha' : w.next + ps.length ≤ a := ha
    show (w.alloc ps).mem a = none
    simp only [World.alloc]; rw [if_neg (by omega)]; exact h.fresh a (by omega)
  · intro i s hs
    show s.first < w.next + ps.length ∧ s.second < w.next + ps.length
    have := h.addr i s hs; omega
  · intro l a ha
    rw [line_new] at ha
    split at ha
    · rw [mem_range_map] at ha
      have := alloc_new (w := w) (ps := ps) (i := a - w.next) (by omega)
      rw [show w.next + (a - w.next) = a by omega] at this
      show (w.alloc ps).mem a ≠ none
      simp [this]
    · exact old a (h.lineA l a ha)
  · intro l
    rw [line_new]
    split
    · exact List.Pairwise.map _ (fun x y hxy e => hxy (by omega)) (List.nodup_range)
    · exact h.lineN l
  · intro l m a ha hb
    rw [line_new] at ha hb
    split at ha <;> split at hb
    · omega
    · rw [mem_range_map] at ha; have := h.alive_lt (h.lineA m a hb); omega
    · rw [mem_range_map] at hb; have := h.alive_lt (h.lineA l a ha); omega
    · exact h.lineD l m a ha hb
  · intro i s hs a ha; exact old a (h.ownA i s hs a ha)
  · intro i s hs a ha l hl
    rw [line_new] at hl
    split at hl
    · rw [mem_range_map] at hl; have := h.alive_lt (h.ownA i s hs a ha); omega
    · exact h.ownL i s hs a ha l hl

theorem inv_dropLine {w : World P R A} (h : Inv w) (l : Nat) :
    Inv { w.free (w.line l) with lines := w.lines.set l [] } := by
  have hl : ∀ m, World.line { w.free (w.line l) with lines := w.lines.set l [] } m = if m = l then [] else w.line m :=
    fun m => line_dropped l m _
  have keep : ∀ a, a ∉ w.line l → w.mem a ≠ none → (w.free (w.line l)).mem a ≠ none := by
    intro a ha hm; simp [World.free, ha, hm]
  refine ⟨?_, h.pos, ?_, h.addr, h.dist, ?_, ?_, ?_, ?_, h.ownD, ?_⟩
  · simp [World.free, h.zero]
  · intro a ha; have : w.mem a = none := h.fresh a ha
    simp [World.free, this]
  · intro m a ha
    rw [hl] at ha
    split at ha
    · cases ha
    · rename_i hne
      exact keep a (fun hb => hne (h.lineD m l a ha hb)) (h.lineA m a ha)
  · intro m; rw [hl]; split
    · exact List.Pairwise.nil
    · exact h.lineN m
  · intro m m' a ha hb
    rw [hl] at ha hb
    split at ha
    · cases ha
    · split at hb
      · cases hb
      · exact h.lineD m m' a ha hb
  · intro i s hs a ha
    exact keep a (h.ownL i s hs a ha l) (h.ownA i s hs a ha)
  · intro i s hs a ha m hm
    rw [hl] at hm
    split at hm
    · cases hm
    · exact h.ownL i s hs a ha m hm

theorem inv_drop {w : World P R A} {j : Nat} {s : Seg R A} (h : Inv w) (hs : w.seg j = some s) :
    Inv { w.free s.cells with segs := w.segs.set j none } := by
  have hl : ∀ i, World.seg { w.free s.cells with segs := w.segs.set j none } i = if i = j then none else w.seg i :=
    fun i => seg_dropped j i _
  have get : ∀ {i t}, World.seg { w.free s.cells with segs := w.segs.set j none } i = some t → i ≠ j ∧ w.seg i = some t := by
    intro i t ht; rw [hl] at ht; split at ht
    · cases ht
    · exact ⟨‹_›, ht⟩
  have keep : ∀ a, a ∉ s.cells → w.mem a ≠ none → (w.free s.cells).mem a ≠ none := by
    intro a ha hm; simp [World.free, ha, hm]
  refine ⟨?_, h.pos, ?_, ?_, ?_, ?_, h.lineN, h.lineD, ?_, ?_, ?_⟩
  · simp [World.free, h.zero]
  · intro a ha; have : w.mem a = none := h.fresh a ha
    simp [World.free, this]
  · intro i t ht; exact h.addr i t (get ht).2
  · intro i t ht; exact h.dist i t (get ht).2
  · intro l a ha
    exact keep a (fun hb => h.ownL j s hs a hb l ha) (h.lineA l a ha)
  · intro i t ht a ha
    exact keep a (fun hb => (get ht).1 (h.ownD j s i t hs (get ht).2 a hb ha)) (h.ownA i t (get ht).2 a ha)
  · intro i t i' t' ht ht'; exact h.ownD i t i' t' (get ht).2 (get ht').2
  · intro i t ht; exact h.ownL i t (get ht).2

theorem inv_step {w w' : World P R A} {op : Op P} (h : Inv w) (hs : w.step G op = .ok w') : Inv w' := by
  cases op with
  | line ps => simp only [World.step, Outcome.ok.injEq] at hs; subst hs; exact inv_line h
  | set l i p =>
    simp only [World.step] at hs
    split at hs
    · exact inv_write h hs
    · cases hs
  | dropLine l => simp only [World.step, Outcome.ok.injEq] at hs; subst hs; exact inv_dropLine h l
  | take k st l i =>
    simp only [World.step] at hs
    split at hs
    · rename_i a b ha hb
      rw [map_eq_ok] at hs
      obtain ⟨⟨w1, s⟩, h1, rfl⟩ := hs
      obtain ⟨p, q, hp, hq, hk, _, hc, _⟩ := ofPoints_inv h1
      rcases hc with ⟨_, rfl, e1, e2⟩ | ⟨hk', rfl, e1, e2⟩
      · exact inv_push_own h e1 e2
      · have na : w1.mem a ≠ none := by rw [hp]; simp
        have nb : w1.mem b ≠ none := by rw [hq]; simp
        refine inv_push h (by rw [hk]; exact hk') ⟨?_, ?_⟩ (.inl ?_)
        · show s.first < _
          rw [e1]; exact h.alive_lt na
        · show s.second < _
          rw [e2]; exact h.alive_lt nb
        · show s.first ≠ s.second ∧ s.first ≠ 0 ∧ s.second ≠ 0
          rw [e1, e2]
          refine ⟨?_, fun e => na (by rw [e]; exact h.zero), fun e => nb (by rw [e]; exact h.zero)⟩
          rintro rfl
          obtain ⟨hi, hia⟩ := List.getElem?_eq_some_iff.1 ha
          obtain ⟨hi', hib⟩ := List.getElem?_eq_some_iff.1 hb
          exact (List.pairwise_iff_getElem.1 (h.lineN l)) i (i + 1) hi hi' (by omega) (hia.trans hib.symm)
    · cases hs
  | null st =>
    simp only [World.step, Outcome.ok.injEq] at hs; subst hs
    have := h.pos
    exact inv_push h (by simp) ⟨by simp; omega, by simp; omega⟩ (.inr ⟨rfl, rfl⟩)
  | make k st j =>
    simp only [World.step] at hs
    split at hs
    · rename_i s hj
      rw [map_eq_ok] at hs
      obtain ⟨⟨w1, t, s'⟩, h1, rfl⟩ := hs
      obtain ⟨hk, _, hsame, hc, _⟩ := construct_inv h1
      rcases hc with ⟨_, p, q, _, rfl, e1, e2⟩ | ⟨hk', rfl, e1, e2, _⟩
      · exact inv_push_own (w := w.put j s') (inv_same h hj hsame) e1 e2
      · refine inv_push (inv_same h hj hsame) (by rw [hk]; exact hk') ?_ ?_
        · simp only [World.put_next]; rw [e1, e2]; exact h.addr j s hj
        · simp only []; rw [e1, e2]; exact h.dist j s hj
    · cases hs
  | assign j k =>
    simp only [World.step] at hs
    split at hs
    · rename_i t s hj hk
      split at hs
      · cases hs; exact h
      · rw [map_eq_ok] at hs
        obtain ⟨⟨w1, t', s'⟩, h1, rfl⟩ := hs
        obtain ⟨e1, e2, hsame, hc, _⟩ := assign_inv h1
        have main : ∀ w1 : World P R A, Inv w1 → w1.seg = w.seg → w1.segs.length = w.segs.length →
            (t'.first < w1.next ∧ t'.second < w1.next) →
            ((t'.first ≠ t'.second ∧ t'.first ≠ 0 ∧ t'.second ≠ 0) ∨ (t'.first = 0 ∧ t'.second = 0)) →
            (t'.cells = t.cells ∨ t'.cells = []) → (j = k → t'.cells = s'.cells ∨ t'.cells = []) →
            Inv ((w1.put k s').put j t') := by
          intro w1 hI hseg hlen ha hd hcl hjk
          have hk1 : w1.seg k = some s := by rw [hseg]; exact hk
          have hI' := inv_same hI hk1 hsame
          have hlt : k < w1.segs.length := World.seg_lt hk1
          by_cases e : j = k
          · exact inv_put (s := s') hI' (by rw [World.seg_put hlt, if_pos e]) (hjk e) ha hd
          · exact inv_put (s := t) hI' (by rw [World.seg_put hlt, if_neg e, hseg]; exact hj) hcl ha hd
        rcases hc with ⟨hb, rfl, a1, a2⟩ | ⟨hb, a1, a2, hw⟩
        · have hp : t.kind = .point := by simp [rebinds] at hb; exact hb.1
          have hcells : t'.cells = [] := by simp [Seg.cells, e1, hp]
          refine main w1 h rfl rfl ?_ ?_ (.inr hcells) (fun _ => .inr hcells)
          · rw [a1, a2]; exact h.addr k s hk
          · rw [a1, a2]; exact h.dist k s hk
        · have hI := inv_written h hw
          have hst : Same t t' := ⟨e1, e2, a1, a2⟩
          obtain ⟨p, q, _, _, _, _, rfl⟩ := hw
          refine main _ hI rfl rfl ?_ ?_ (.inl hst.cells) ?_
          · rw [a1, a2]; exact h.addr j t hj
          · rw [a1, a2]; exact h.dist j t hj
          · rintro rfl
            rw [hj] at hk; cases hk
            left; rw [hst.cells, hsame.cells]
    · cases hs
  | ask j =>
    simp only [World.step] at hs
    split at hs
    · rename_i s hj
      rw [map_eq_ok] at hs
      obtain ⟨⟨v, s'⟩, h1, rfl⟩ := hs
      refine inv_same h hj ?_
      unfold World.ask at h1
      split at h1
      · rw [map_eq_ok] at h1; obtain ⟨_, _, e⟩ := h1; cases e; exact .refl _
      · rw [map_eq_ok] at h1; obtain ⟨_, hc, e⟩ := h1; cases e; exact (compute_inv hc).1
      · cases h1; exact .refl _
    · cases hs
  | drop j =>
    simp only [World.step] at hs
    split at hs
    · rename_i s hj
      cases hs; exact inv_drop h hj
    · cases hs

theorem inv_run {w w' : World P R A} {ops : List (Op P)} (h : Inv w) (hr : w.run G ops = .ok w') : Inv w' := by
  induction ops generalizing w with
  | nil => cases hr; exact h
  | cons op ops ih =>
    simp only [World.run, bind_eq_ok] at hr
    obtain ⟨w1, h1, h2⟩ := hr
    exact ih (inv_step h h1) h2

/-! ### What a step leaves as it is -/

/-- The cells a step writes to or ends. -/
def touched (w : World P R A) : Op P → List Nat
  | .set l i _ => ((w.line l)[i]?).toList
  | .dropLine l => w.line l
  | .assign j k => match w.seg j, w.seg k with
    | some t, some s => if rebinds t s then [] else [t.first, t.second]
    | _, _ => []
  | .drop j => match w.seg j with
    | some s => s.cells
    | none => []
  | _ => []

theorem put_put_mem (w : World P R A) (j k : Nat) (t s : Seg R A) : ((w.put k s).put j t).mem = w.mem := rfl

/-- Points that are not written to stay. -/
theorem mem_kept {w w' : World P R A} {op : Op P} (hs : w.step G op = .ok w')
    {a : Nat} (ha : a < w.next) (ht : a ∉ touched w op) : w'.mem a = w.mem a := by
  cases op with
  | line ps => simp only [World.step, Outcome.ok.injEq] at hs; subst hs; exact alloc_old ha
  | set l i p =>
    simp only [World.step] at hs
    split at hs
    · rename_i b hb
      obtain ⟨_, rfl⟩ := write_inv hs
      simp only [touched, hb, Option.toList, List.mem_singleton] at ht
      simp [ht]
    · cases hs
  | dropLine l =>
    simp only [World.step, Outcome.ok.injEq] at hs; subst hs
    simp only [touched] at ht
    simp [World.free, ht]
  | take k st l i =>
    simp only [World.step] at hs
    split at hs
    · rw [map_eq_ok] at hs
      obtain ⟨⟨w1, s⟩, h1, rfl⟩ := hs
      obtain ⟨p, q, _, _, _, _, hc, _⟩ := ofPoints_inv h1
      rcases hc with ⟨_, rfl, _, _⟩ | ⟨_, rfl, _, _⟩
      · exact alloc_old ha
      · rfl
    · cases hs
  | null st => simp only [World.step, Outcome.ok.injEq] at hs; subst hs; rfl
  | make k st j =>
    simp only [World.step] at hs
    split at hs
    · rw [map_eq_ok] at hs
      obtain ⟨⟨w1, t, s'⟩, h1, rfl⟩ := hs
      obtain ⟨_, _, _, hc, _⟩ := construct_inv h1
      rcases hc with ⟨_, p, q, _, rfl, _, _⟩ | ⟨_, rfl, _⟩
      · exact alloc_old ha
      · rfl
    · cases hs
  | assign j k =>
    simp only [World.step] at hs
    split at hs
    · rename_i t s hj hk
      split at hs
      · cases hs; rfl
      · rw [map_eq_ok] at hs
        obtain ⟨⟨w1, t', s'⟩, h1, rfl⟩ := hs
        obtain ⟨_, _, _, hc, _⟩ := assign_inv h1
        rcases hc with ⟨_, rfl, _⟩ | ⟨hb, _, _, p, q, _, _, _, _, rfl⟩
        · rfl
        · simp only [touched, hj, hk, hb] at ht
          simp only [Bool.false_eq_true, if_false, List.mem_cons, List.not_mem_nil, or_false, not_or] at ht
          simp [ht]
    · cases hs
  | ask j =>
    simp only [World.step] at hs
    split at hs
    · rw [map_eq_ok] at hs
      obtain ⟨_, _, rfl⟩ := hs
      rfl
    · cases hs
  | drop j =>
    simp only [World.step] at hs
    split at hs
    · rename_i s hj
      cases hs
      simp only [touched, hj] at ht
      simp [World.free, ht]
    · cases hs

/-- What is gone stays gone. -/
theorem mem_gone {w w' : World P R A} {op : Op P} (hs : w.step G op = .ok w')
    {a : Nat} (ha : a < w.next) (hm : w.mem a = none) : w'.mem a = none := by
  by_cases ht : a ∈ touched w op
  · cases op with
    | set l i p =>
      simp only [World.step] at hs
      split at hs
      · rename_i b hb
        obtain ⟨hne, rfl⟩ := write_inv hs
        simp only [touched, hb, Option.toList, List.mem_singleton] at ht
        subst ht; exact absurd hm hne
      · cases hs
    | dropLine l =>
      simp only [World.step, Outcome.ok.injEq] at hs; subst hs
      simp [World.free, hm]
    | assign j k =>
      simp only [World.step] at hs
      split at hs
      · rename_i t s hj hk
        split at hs
        · cases hs; exact hm
        · rw [map_eq_ok] at hs
          obtain ⟨⟨w1, t', s'⟩, h1, rfl⟩ := hs
          obtain ⟨_, _, _, hc, _⟩ := assign_inv h1
          rcases hc with ⟨_, rfl, _⟩ | ⟨hb, _, _, p, q, _, n1, _, n2, rfl⟩
          · exact hm
          · simp only [touched, hj, hk, hb] at ht
            simp only [Bool.false_eq_true, if_false, List.mem_cons, List.not_mem_nil, or_false] at ht
            rcases ht with rfl | rfl
            · exact absurd hm n1
            · exact absurd hm n2
      · cases hs
    | drop j =>
      simp only [World.step] at hs
      split at hs
      · cases hs; simp [World.free, hm]
      · cases hs
    | line ps => simp [touched] at ht
    | take k st l i => simp [touched] at ht
    | null st => simp [touched] at ht
    | make k st j => simp [touched] at ht
    | ask j => simp [touched] at ht
  · rw [mem_kept hs ha ht, hm]

/-- The step ends a variable. -/
def Ends (i : Nat) : Op P → Prop
  | .drop j => j = i
  | _ => False

/-- The step assigns to a variable. -/
def Assigns (i : Nat) : Op P → Prop
  | .assign j _ => j = i
  | _ => False

/-- Other variables keep their kind and their points. -/
theorem seg_kept {w w' : World P R A} {op : Op P} (hs : w.step G op = .ok w') {i : Nat} {r : Seg R A}
    (hi : w.seg i = some r) (he : ¬ Ends i op) (ha : ¬ Assigns i op) : ∃ r', w'.seg i = some r' ∧ Same r r' := by
  have hlt := World.seg_lt hi
  cases op with
  | line ps => simp only [World.step, Outcome.ok.injEq] at hs; subst hs; exact ⟨r, hi, .refl _⟩
  | set l m p =>
    simp only [World.step] at hs
    split at hs
    · obtain ⟨_, rfl⟩ := write_inv hs
      exact ⟨r, hi, .refl _⟩
    · cases hs
  | dropLine l => simp only [World.step, Outcome.ok.injEq] at hs; subst hs; exact ⟨r, hi, .refl _⟩
  | take k st l m =>
    simp only [World.step] at hs
    split at hs
    · rw [map_eq_ok] at hs
      obtain ⟨⟨w1, s⟩, h1, rfl⟩ := hs
      obtain ⟨p, q, _, _, _, _, hc, _⟩ := ofPoints_inv h1
      refine ⟨r, ?_, .refl _⟩
      rcases hc with ⟨_, rfl, _, _⟩ | ⟨_, rfl, _, _⟩
      · rw [World.seg_push, if_neg (by simp; omega)]; exact hi
      · rw [World.seg_push, if_neg (by simp only; omega)]; exact hi
    · cases hs
  | null st =>
    simp only [World.step, Outcome.ok.injEq] at hs; subst hs
    exact ⟨r, by rw [World.seg_push, if_neg (by omega)]; exact hi, .refl _⟩
  | make k st j =>
    simp only [World.step] at hs
    split at hs
    · rename_i s hj
      have hjl := World.seg_lt hj
      rw [map_eq_ok] at hs
      obtain ⟨⟨w1, t, s'⟩, h1, rfl⟩ := hs
      obtain ⟨_, _, hsame, hc, _⟩ := construct_inv h1
      have hw : w1.seg = w.seg ∧ w1.segs.length = w.segs.length := by
        rcases hc with ⟨_, p, q, _, rfl, _, _⟩ | ⟨_, rfl, _⟩ <;> exact ⟨rfl, rfl⟩
      simp only [World.seg_push, World.put_len]
      rw [if_neg (by omega), World.seg_put (by omega)]
      split
      · rename_i e; subst e; rw [hi] at hj; cases hj; exact ⟨s', rfl, hsame⟩
      · exact ⟨r, by rw [hw.1]; exact hi, .refl _⟩
    · cases hs
  | assign j k =>
    simp only [World.step] at hs
    split at hs
    · rename_i t s hj hk
      have hjl := World.seg_lt hj
      have hkl := World.seg_lt hk
      split at hs
      · cases hs; exact ⟨r, hi, .refl _⟩
      · rw [map_eq_ok] at hs
        obtain ⟨⟨w1, t', s'⟩, h1, rfl⟩ := hs
        obtain ⟨_, _, hsame, hc, _⟩ := assign_inv h1
        have hw : w1.seg = w.seg ∧ w1.segs.length = w.segs.length := by
          rcases hc with ⟨_, rfl, _⟩ | ⟨_, _, _, p, q, _, _, _, _, rfl⟩ <;> exact ⟨rfl, rfl⟩
        have hne : i ≠ j := fun e => ha e.symm
        rw [World.seg_put (by simp; omega), if_neg hne, World.seg_put (by simp only; omega)]
        split
        · rename_i e; subst e; rw [hi] at hk; cases hk; exact ⟨s', rfl, hsame⟩
        · exact ⟨r, by rw [hw.1]; exact hi, .refl _⟩
    · cases hs
  | ask j =>
    simp only [World.step] at hs
    split at hs
    · rename_i s hj
      rw [map_eq_ok] at hs
      obtain ⟨⟨v, s'⟩, h1, rfl⟩ := hs
      rw [World.seg_put (World.seg_lt hj)]
      split
      · rename_i e; subst e; rw [hi] at hj; cases hj
        refine ⟨s', rfl, ?_⟩
        unfold World.ask at h1
        split at h1
        · rw [map_eq_ok] at h1; obtain ⟨_, _, e⟩ := h1; cases e; exact .refl _
        · rw [map_eq_ok] at h1; obtain ⟨_, hc, e⟩ := h1; cases e; exact (compute_inv hc).1
        · cases h1; exact .refl _
      · exact ⟨r, hi, .refl _⟩
    · cases hs
  | drop j =>
    simp only [World.step] at hs
    split at hs
    · cases hs
      refine ⟨r, ?_, .refl _⟩
      have := seg_dropped (w := w) j i (w.free ‹Seg R A›.cells).mem
      rw [if_neg (fun e => he e.symm)] at this
      exact this.trans hi
    · cases hs

/-- Where the points of a variable come from: from nowhere, from new points, from a line, or from a variable it was made of,
assigned, or is. -/
theorem origin {w w' : World P R A} {op : Op P} (hs : w.step G op = .ok w') {i : Nat} {r' : Seg R A}
    (hi : w'.seg i = some r') {a : Nat} (ha : a = r'.first ∨ a = r'.second) :
    a = 0 ∨ w.next ≤ a ∨ (∃ l, a ∈ w.line l) ∨
      ∃ i0 r, w.seg i0 = some r ∧ (a = r.first ∨ a = r.second) ∧
        (i0 = i ∨ (∃ k st, op = .make k st i0 ∧ k ≠ .own) ∨ (op = .assign i i0 ∧ r.kind = .point)) := by
  have self : ∀ {r : Seg R A}, w.seg i = some r → Same r r' → a = 0 ∨ w.next ≤ a ∨ (∃ l, a ∈ w.line l) ∨
      ∃ i0 r, w.seg i0 = some r ∧ (a = r.first ∨ a = r.second) ∧
        (i0 = i ∨ (∃ k st, op = .make k st i0 ∧ k ≠ .own) ∨ (op = .assign i i0 ∧ r.kind = .point)) := by
    intro r hr hS
    rw [hS.2.2.1, hS.2.2.2] at ha
    exact .inr (.inr (.inr ⟨i, r, hr, ha, .inl rfl⟩))
  cases op with
  | line ps => simp only [World.step, Outcome.ok.injEq] at hs; subst hs; exact self hi (.refl _)
  | set l m p =>
    simp only [World.step] at hs
    split at hs
    · obtain ⟨_, rfl⟩ := write_inv hs
      exact self hi (.refl _)
    · cases hs
  | dropLine l => simp only [World.step, Outcome.ok.injEq] at hs; subst hs; exact self hi (.refl _)
  | take k st l m =>
    simp only [World.step] at hs
    split at hs
    · rename_i b c hb hcc
      rw [map_eq_ok] at hs
      obtain ⟨⟨w1, s⟩, h1, rfl⟩ := hs
      obtain ⟨p, q, _, _, _, _, hc, _⟩ := ofPoints_inv h1
      rw [World.seg_push] at hi
      split at hi
      · cases hi
        rcases hc with ⟨_, rfl, e1, e2⟩ | ⟨_, rfl, e1, e2⟩
        · right; left; simp only at ha; omega
        · right; right; left
          refine ⟨l, ?_⟩
          rcases ha with rfl | rfl
          · rw [e1]; exact List.mem_of_getElem? hb
          · rw [e2]; exact List.mem_of_getElem? hcc
      · refine self ?_ (.refl _)
        rcases hc with ⟨_, rfl, _, _⟩ | ⟨_, rfl, _, _⟩ <;> exact hi
    · cases hs
  | null st =>
    simp only [World.step, Outcome.ok.injEq] at hs; subst hs
    rw [World.seg_push] at hi
    split at hi
    · cases hi; left; simpa using ha
    · exact self hi (.refl _)
  | make k st j =>
    simp only [World.step] at hs
    split at hs
    · rename_i s hj
      have hjl := World.seg_lt hj
      rw [map_eq_ok] at hs
      obtain ⟨⟨w1, t, s'⟩, h1, rfl⟩ := hs
      obtain ⟨_, _, hsame, hc, _⟩ := construct_inv h1
      have hw : w1.seg = w.seg ∧ w1.segs.length = w.segs.length := by
        rcases hc with ⟨_, p, q, _, rfl, _, _⟩ | ⟨_, rfl, _⟩ <;> exact ⟨rfl, rfl⟩
      rw [World.seg_push] at hi
      split at hi
      · cases hi
        rcases hc with ⟨_, p, q, _, rfl, e1, e2⟩ | ⟨hk, rfl, e1, e2, _⟩
        · right; left; simp only at e1 e2 ha; omega
        · simp only at e1 e2 ha
          rw [e1, e2] at ha
          exact .inr (.inr (.inr ⟨j, s, hj, ha, .inr (.inl ⟨k, st, rfl, hk⟩)⟩))
      · rw [World.seg_put (by simp only; omega)] at hi
        split at hi
        · rename_i e; cases hi; exact self (by rw [e]; exact hj) hsame
        · simp only at hi; rw [hw.1] at hi; exact self hi (.refl _)
    · cases hs
  | assign j k =>
    simp only [World.step] at hs
    split at hs
    · rename_i t s hj hk
      have hjl := World.seg_lt hj
      have hkl := World.seg_lt hk
      split at hs
      · cases hs; exact self hi (.refl _)
      · rw [map_eq_ok] at hs
        obtain ⟨⟨w1, t', s'⟩, h1, rfl⟩ := hs
        obtain ⟨e1, e2, hsame, hc, _⟩ := assign_inv h1
        have hw : w1.seg = w.seg ∧ w1.segs.length = w.segs.length := by
          rcases hc with ⟨_, rfl, _⟩ | ⟨_, _, _, p, q, _, _, _, _, rfl⟩ <;> exact ⟨rfl, rfl⟩
        rw [World.seg_put (by simp; omega)] at hi
        split at hi
        · rename_i e; cases hi; subst e
          rcases hc with ⟨hb, rfl, a1, a2⟩ | ⟨hb, a1, a2, hwr⟩
          · simp only at a1 a2 ha
            rw [a1, a2] at ha
            simp only [rebinds, decide_eq_true_eq] at hb
            exact .inr (.inr (.inr ⟨k, s, hk, ha, .inr (.inr ⟨rfl, hb.2⟩)⟩))
          · exact self hj ⟨e1, e2, a1, a2⟩
        · rw [World.seg_put (by simp only; omega)] at hi
          split at hi
          · rename_i e; cases hi; exact self (by rw [e]; exact hk) hsame
          · simp only at hi; rw [hw.1] at hi; exact self hi (.refl _)
    · cases hs
  | ask j =>
    simp only [World.step] at hs
    split at hs
    · rename_i s hj
      rw [map_eq_ok] at hs
      obtain ⟨⟨v, s'⟩, h1, rfl⟩ := hs
      rw [World.seg_put (World.seg_lt hj)] at hi
      split at hi
      · rename_i e; cases hi
        refine self (by rw [e]; exact hj) ?_
        unfold World.ask at h1
        split at h1
        · rw [map_eq_ok] at h1; obtain ⟨_, _, e⟩ := h1; cases e; exact .refl _
        · rw [map_eq_ok] at h1; obtain ⟨_, hc, e⟩ := h1; cases e; exact (compute_inv hc).1
        · cases h1; exact .refl _
      · exact self hi (.refl _)
    · cases hs
  | drop j =>
    simp only [World.step] at hs
    split at hs
    · rename_i s hj
      cases hs
      have := seg_dropped (w := w) j i (w.free s.cells).mem
      rw [show World.seg { w.free s.cells with segs := w.segs.set j none } i = _ from this] at hi
      split at hi
      · cases hi
      · exact self hi (.refl _)
    · cases hs

/-- The points of a line stay in place until it ends. -/
theorem line_place {w w' : World P R A} {op : Op P} (hs : w.step G op = .ok w') {l : Nat}
    (hl : l < w.lines.length) (hne : op ≠ .dropLine l) : w'.line l = w.line l ∧ l < w'.lines.length := by
  cases op with
  | line ps =>
    simp only [World.step, Outcome.ok.injEq] at hs; subst hs
    refine ⟨?_, by simp; omega⟩
    rw [line_new, if_neg (by omega)]
  | set m i p =>
    simp only [World.step] at hs
    split at hs
    · obtain ⟨_, rfl⟩ := write_inv hs
      exact ⟨rfl, hl⟩
    · cases hs
  | dropLine m =>
    simp only [World.step, Outcome.ok.injEq] at hs; subst hs
    have := line_dropped (w := w) m l (w.free (w.line m)).mem
    rw [if_neg (fun e => hne (by rw [e]))] at this
    exact ⟨this, by simpa using hl⟩
  | take k st m i =>
    simp only [World.step] at hs
    split at hs
    · rw [map_eq_ok] at hs
      obtain ⟨⟨w1, s⟩, h1, rfl⟩ := hs
      obtain ⟨p, q, _, _, _, _, hc, _⟩ := ofPoints_inv h1
      rcases hc with ⟨_, rfl, _, _⟩ | ⟨_, rfl, _, _⟩ <;> exact ⟨rfl, hl⟩
    · cases hs
  | null st => simp only [World.step, Outcome.ok.injEq] at hs; subst hs; exact ⟨rfl, hl⟩
  | make k st j =>
    simp only [World.step] at hs
    split at hs
    · rw [map_eq_ok] at hs
      obtain ⟨⟨w1, t, s'⟩, h1, rfl⟩ := hs
      obtain ⟨_, _, _, hc, _⟩ := construct_inv h1
      rcases hc with ⟨_, p, q, _, rfl, _, _⟩ | ⟨_, rfl, _⟩ <;> exact ⟨rfl, hl⟩
    · cases hs
  | assign j k =>
    simp only [World.step] at hs
    split at hs
    · split at hs
      · cases hs; exact ⟨rfl, hl⟩
      · rw [map_eq_ok] at hs
        obtain ⟨⟨w1, t', s'⟩, h1, rfl⟩ := hs
        obtain ⟨_, _, _, hc, _⟩ := assign_inv h1
        rcases hc with ⟨_, rfl, _⟩ | ⟨_, _, _, p, q, _, _, _, _, rfl⟩ <;> exact ⟨rfl, hl⟩
    · cases hs
  | ask j =>
    simp only [World.step] at hs
    split at hs
    · rw [map_eq_ok] at hs
      obtain ⟨_, _, rfl⟩ := hs
      exact ⟨rfl, hl⟩
    · cases hs
  | drop j =>
    simp only [World.step] at hs
    split at hs
    · cases hs; exact ⟨rfl, hl⟩
    · cases hs

end MM.SegRef
