import Verif.Model.Pipeline
import Verif.Props.CandidateEdge
import Verif.Props.MatchRoute
import Verif.Props.ExtractRoute
import Verif.Props.ShortestPath
import Mathlib.Tactic.Abel

/-! # Places on an edge and the pieces between them; paths of the network as lines -/

set_option autoImplicit false
set_option linter.unusedSectionVars false

namespace MM.Pipe

open MM.Line MM.Route MM.Router MM.CandEdge

variable {V P R A : Type} [DecidableEq V] [DecidableEq P] [LinearOrder R] [AddCommGroup R] [IsOrderedAddMonoid R]

/-! ### Notions of the statements -/

/-- `x` is between `s` and `t`. -/
def Between (G : Geo P R A) (s x t : P) : Prop := G.len s x + G.len x t = G.len s t

/-- Distances are symmetric and positive between different points, numbers are added exactly, and segments are straight: of
two points between `s` and `t`, the one nearer to `s` is between `s` and the other. -/
structure Plane (G : Geo P R A) : Prop extends Metric G where
  straight : ∀ s t x y, Between G s x t → Between G s y t → G.len s x ≤ G.len s y → Between G s x y

/-- `x` to `y` is a piece of a segment of the line, in its direction. -/
def PieceOf (G : Geo P R A) (l : List P) (x y : P) : Prop :=
  ∃ s t, (s, t) ∈ segs l ∧ Between G s x t ∧ Between G s y t ∧ Between G s x y

theorem between_left {G : Geo P R A} (h : Metric G) (s t : P) : Between G s s t := by
  unfold Between; rw [h.self, zero_add]

theorem between_right {G : Geo P R A} (h : Metric G) (s t : P) : Between G s t t := by
  unfold Between; rw [h.self, add_zero]

theorem len_nonneg {G : Geo P R A} (h : Metric G) (x y : P) : 0 ≤ G.len x y := by
  by_cases e : x = y
  · rw [e, h.self]
  · exact (h.pos x y e).le

theorem len_zero {G : Geo P R A} (h : Metric G) {x y : P} (e : G.len x y = 0) : x = y := by
  by_contra hc
  exact (h.pos x y hc).ne' e

theorem pieceOf_seg {G : Geo P R A} (h : Metric G) {l : List P} {x y : P} (hs : (x, y) ∈ segs l) : PieceOf G l x y :=
  ⟨x, y, hs, between_left h _ _, between_right h _ _, between_left h _ _⟩

/-! ### Places on an edge -/

/-- `q` is on the segment from `s` to `t` behind `pre`, but not its start, at distance `d` along the line. -/
structure Place (G : Geo P R A) (l : List P) (q : P) (d : R) (pre : List P) (s t : P) (post : List P) : Prop where
  line : l = pre ++ s :: t :: post
  between : Between G s q t
  ne : s ≠ q
  dist : d = CandEdge.total G (pre ++ [s]) + G.len s q

/-- A division of a line at `q`: the two parts repeat no point and their lengths add up. -/
structure Cut (G : Geo P R A) (l : List P) (q : P) (f t : List P) : Prop where
  divides : Divides l q f t
  sum : CandEdge.total G f + CandEdge.total G t = CandEdge.total G l
  from_ : f.IsChain (· ≠ ·)
  to_ : t.IsChain (· ≠ ·)

theorem total_snoc2 (G : Geo P R A) (l : List P) (x y : P) :
    CandEdge.total G (l ++ [x, y]) = CandEdge.total G (l ++ [x]) + G.len x y := by
  rw [CandEdge.total_append G l x [y]]
  simp [CandEdge.total]

theorem total_two (G : Geo P R A) (l : List P) (x y : P) (r : List P) :
    CandEdge.total G (l ++ x :: y :: r) = CandEdge.total G (l ++ [x, y]) + CandEdge.total G (y :: r) := by
  have := CandEdge.total_append G (l ++ [x]) y r
  simpa using this

theorem cut_place {G : Geo P R A} (h : Metric G) {l : List P} (h2 : 2 ≤ l.length) {q : P} {f t : List P} (hc : Cut G l q f t)
    (hf : f ≠ []) : ∃ pre s u post, Place G l q (CandEdge.total G f) pre s u post := by
  rcases hc.divides with ⟨h1, _, _⟩ | ⟨h1, h3, h4⟩ | ⟨pre, r, hp, hr, he, h5, h6⟩
  · exact absurd h1 hf
  · obtain ⟨k, hk⟩ := List.getLast?_eq_some_iff.1 h4
    rcases List.eq_nil_or_concat k with rfl | ⟨k', s, rfl⟩
    · rw [hk] at h2; simp at h2
    · have hl : l = k' ++ s :: q :: [] := by rw [hk]; simp
      refine ⟨k', s, q, [], hl, between_right h _ _, ?_, ?_⟩
      · have := hc.from_
        rw [h1, hl, List.isChain_append] at this
        exact (List.isChain_cons_cons.1 this.2.1).1
      · rw [h1, hl, total_snoc2]
  · rcases List.eq_nil_or_concat pre with rfl | ⟨k, s, rfl⟩
    · exact absurd rfl hp
    · rw [List.concat_eq_append] at he h5
      obtain ⟨u, post, rfl⟩ := List.exists_cons_of_ne_nil hr
      have hsq : s ≠ q := by
        have := hc.from_
        rw [h5, List.append_assoc, List.singleton_append, List.isChain_append] at this
        exact (List.isChain_cons_cons.1 this.2.1).1
      have ht : CandEdge.total G f = CandEdge.total G (k ++ [s]) + G.len s q := by
        rw [h5, List.append_assoc]; exact total_snoc2 G k s q
      rcases he with he | he
      · refine ⟨k, s, u, post, by rw [he]; simp, ?_, hsq, ht⟩
        have hs := hc.sum
        have e1 : CandEdge.total G (q :: u :: post) = G.len q u + CandEdge.total G (u :: post) := rfl
        have e2 : CandEdge.total G (k ++ [s] ++ u :: post) = CandEdge.total G (k ++ [s]) + (G.len s u + CandEdge.total G (u :: post)) := by
          rw [List.append_assoc, List.singleton_append, CandEdge.total_append G k s]; rfl
        rw [ht, h6, he, e1, e2] at hs
        unfold Between
        have := add_left_cancel (a := CandEdge.total G (k ++ [s]))
          (b := G.len s q + (G.len q u + CandEdge.total G (u :: post))) (c := G.len s u + CandEdge.total G (u :: post))
          (by rw [← add_assoc]; exact hs)
        rw [← add_assoc] at this
        exact add_right_cancel this
      · exact ⟨k, s, q, u :: post, by rw [he]; simp, between_right h _ _, hsq, ht⟩

theorem place_le {G : Geo P R A} (h : Metric G) {l : List P} {q : P} {d : R} {pre : List P} {s t : P} {post : List P}
    (hp : Place G l q d pre s t post) : CandEdge.total G (pre ++ [s]) < d ∧ d ≤ CandEdge.total G (pre ++ [s, t]) := by
  rw [hp.dist, total_snoc2]
  constructor
  · have := h.pos s q hp.ne
    simpa using this
  · have := hp.between
    unfold Between at this
    rw [← this]
    have := len_nonneg h q t
    rw [← add_assoc]
    simpa using this

theorem marks_split {G : Geo P R A} (h : Metric G) (pre : List P) (s t : P) (post : List P) :
    Substring.marks G (pre ++ s :: t :: post) =
      CandEdge.M G 0 (pre ++ [s]) ++ CandEdge.M G (CandEdge.total G (pre ++ [s, t])) (t :: post) := by
  rw [CandEdge.marks_M h, show pre ++ s :: t :: post = (pre ++ [s]) ++ t :: post by simp, CandEdge.M_append, zero_add]
  simp

/-- The piece between two places of a line, the first before the second. -/
theorem piece_pieces {G : Geo P R A} (h : Plane G) {l : List P} (hl : l.IsChain (· ≠ ·)) {q q' : P} {a b : R}
    {pre pre' : List P} {s s' t t' : P} {post post' : List P} (hp : Place G l q a pre s t post)
    (hp' : Place G l q' b pre' s' t' post') (hab : a ≤ b) (hne : q ≠ q') :
    a < b ∧ (∀ sg ∈ segs (Substring.piece q (Substring.interior G l a b) q'), PieceOf G l sg.1 sg.2) ∧
      CandEdge.total G (Substring.piece q (Substring.interior G l a b) q') + a = b := by
  have hm := h.toMetric
  obtain ⟨a1, a2⟩ := place_le hm hp
  obtain ⟨b1, b2⟩ := place_le hm hp'
  have hseg : (s, t) ∈ segs l := by rw [hp.line, CandEdge.segs_split]; simp
  have hseg' : (s', t') ∈ segs l := by rw [hp'.line, CandEdge.segs_split]; simp
  rcases Nat.lt_trichotomy pre.length pre'.length with hk | hk | hk
  · -- the second place is on a later segment
    have hpre : ∃ mid, pre' ++ [s'] = pre ++ s :: mid ++ [s'] ∧ t :: post = mid ++ s' :: t' :: post' := by
      have e := hp.line.symm.trans hp'.line
      rw [List.append_eq_append_iff] at e
      rcases e with ⟨z, e1, e2⟩ | ⟨z, e1, e2⟩
      · cases z with
        | nil => simp at e1; rw [e1] at hk; exact absurd hk (lt_irrefl _)
        | cons x z =>
          simp only [List.cons_append, List.cons.injEq] at e2
          obtain ⟨rfl, e2⟩ := e2
          exact ⟨z, by rw [e1], e2⟩
      · rw [e1] at hk; simp at hk
    obtain ⟨mid, m1, m2⟩ := hpre
    have hlt : a < b := by
      refine lt_of_le_of_lt a2 (lt_of_le_of_lt ?_ b1)
      rw [m1]
      cases mid with
      | nil =>
        simp only [List.nil_append, List.cons.injEq] at m2
        rw [← m2.1]; simp
      | cons x mid =>
        simp only [List.cons_append, List.cons.injEq] at m2
        rw [← m2.1]
        have : pre ++ s :: t :: mid ++ [s'] = pre ++ s :: t :: (mid ++ [s']) := by simp
        rw [this, total_two G pre s t (mid ++ [s'])]
        have := CandEdge.total_nonneg hm (t :: (mid ++ [s']))
        simpa using this
    refine ⟨hlt, ?_⟩
    -- the points of the piece
    have hl2 : (t :: post).IsChain (· ≠ ·) := by
      rw [hp.line, List.isChain_append] at hl
      exact (List.isChain_cons_cons.1 hl.2.1).2
    have hin : Substring.interior G l a b = if q = t then (mid ++ [s']).tail else mid ++ [s'] := by
      unfold Substring.interior
      have hmk : Substring.marks G l = CandEdge.M G 0 (pre ++ [s]) ++ CandEdge.M G (CandEdge.total G (pre ++ [s, t])) (mid ++ [s']) ++
          CandEdge.M G (CandEdge.total G (pre' ++ [s', t'])) (t' :: post') := by
        rw [hp.line, marks_split hm, m2, show mid ++ s' :: t' :: post' = (mid ++ [s']) ++ t' :: post' by simp,
          CandEdge.M_append G (mid ++ [s']) t' post', ← List.append_assoc]
        congr 2
        rw [show pre' ++ [s', t'] = (pre' ++ [s']) ++ [t'] by simp, m1]
        cases mid with
        | nil =>
          simp only [List.nil_append, List.cons.injEq] at m2
          rw [m2.1, show pre ++ s :: [] ++ [s'] ++ [t'] = pre ++ s :: s' :: [t'] by simp, total_two G pre s s' [t']]
          simp
        | cons x mid =>
          simp only [List.cons_append, List.cons.injEq] at m2
          rw [m2.1, show pre ++ s :: (x :: mid) ++ [s'] ++ [t'] = pre ++ s :: x :: (mid ++ [s'] ++ [t']) by simp, total_two G pre s x (mid ++ [s'] ++ [t'])]
          simp
      rw [hmk, List.filter_append, List.filter_append, CandEdge.filter_none (l := CandEdge.M G 0 (pre ++ [s])),
        CandEdge.filter_none (l := CandEdge.M G (CandEdge.total G (pre' ++ [s', t'])) (t' :: post')), List.nil_append, List.append_nil]
      · have hub : ∀ m ∈ CandEdge.M G (CandEdge.total G (pre ++ [s, t])) (mid ++ [s']), m.2 < b := by
          intro m hmm
          refine lt_of_le_of_lt (CandEdge.M_range hm _ _ m hmm).2 (lt_of_le_of_lt (le_of_eq ?_) b1)
          rw [m1]
          cases mid with
          | nil =>
            simp only [List.nil_append, List.cons.injEq] at m2
            rw [← m2.1]; simp [CandEdge.total]
          | cons x mid =>
            simp only [List.cons_append, List.cons.injEq] at m2
            rw [← m2.1, show pre ++ s :: t :: mid ++ [s'] = pre ++ s :: t :: (mid ++ [s']) by simp, total_two G pre s t (mid ++ [s'])]
            simp
        obtain ⟨x, mid', hx⟩ : ∃ x mid', mid ++ [s'] = x :: mid' := by
          cases mid with
          | nil => exact ⟨_, _, rfl⟩
          | cons x mid => exact ⟨_, _, rfl⟩
        have hxt : x = t := by
          have : (mid ++ s' :: t' :: post').head? = (mid ++ [s']).head? := by cases mid <;> simp
          rw [← m2, hx] at this
          simpa using this.symm
        subst hxt
        have hch : (x :: mid').IsChain (· ≠ ·) := by
          rw [← hx]
          have : (mid ++ [s'] ++ t' :: post').IsChain (· ≠ ·) := by
            rw [List.append_assoc, List.singleton_append, ← m2]; exact hl2
          exact (List.isChain_append.1 this).1
        rw [hx] at hub ⊢
        obtain ⟨m, e, e1, e2⟩ := CandEdge.M_first hm hch (CandEdge.total G (pre ++ [s, x]))
        rw [e] at hub ⊢
        by_cases hq : q = x
        · rw [if_pos hq, List.filter_cons_of_neg, CandEdge.filter_all, e1, List.tail_cons]
          · intro y hy
            have := hub y (List.mem_cons_of_mem _ hy)
            simp [lt_of_le_of_lt a2 (e2 y hy), this]
          · have : a = CandEdge.total G (pre ++ [s, x]) := by rw [hp.dist, total_snoc2, hq]
            simp [this]
        · rw [if_neg hq, CandEdge.filter_all]
          · rw [List.map_cons, e1]
          · have hax : a < CandEdge.total G (pre ++ [s, x]) := by
              rw [hp.dist, total_snoc2]
              have h3 := hp.between
              unfold Between at h3
              have h4 := hm.pos q x hq
              rw [← h3]
              simpa using h4
            intro y hy
            have h5 := hub y hy
            rcases List.mem_cons.1 hy with rfl | hy
            · simp [hax, h5]
            · simp [hax.trans (e2 y hy), h5]
      · intro m hmm
        have := (CandEdge.M_range hm _ _ m hmm).1
        simp [not_lt.2 (b2.trans this)]
      · intro m hmm
        have := (CandEdge.M_range hm _ _ m hmm).2
        rw [zero_add] at this
        simp [not_lt.2 (this.trans a1.le)]
    have hmid : ∀ sg ∈ segs (mid ++ [s']), sg ∈ segs l := by
      intro sg hsg
      rw [hp.line, CandEdge.segs_split, m2]
      refine List.mem_append_right _ (List.mem_cons_of_mem _ ?_)
      rw [CandEdge.segs_split]
      exact List.mem_append_left _ hsg
    have hlast : PieceOf G l s' q' :=
      ⟨s', t', hseg', between_left hm _ _, hp'.between, between_left hm _ _⟩
    have hfirst : PieceOf G l q t := ⟨s, t, hseg, hp.between, between_right hm _ _, hp.between⟩
    obtain ⟨x, mid', hx⟩ : ∃ x mid', mid ++ [s'] = x :: mid' := by
      cases mid with
      | nil => exact ⟨_, _, rfl⟩
      | cons x mid => exact ⟨_, _, rfl⟩
    have hxt : x = t := by
      have : (mid ++ s' :: t' :: post').head? = (mid ++ [s']).head? := by cases mid <;> simp
      rw [← m2, hx] at this
      simpa using this.symm
    subst hxt
    have hch : (x :: mid').IsChain (· ≠ ·) := by
      rw [← hx]
      have : (mid ++ [s'] ++ t' :: post').IsChain (· ≠ ·) := by
        rw [List.append_assoc, List.singleton_append, ← m2]; exact hl2
      exact (List.isChain_append.1 this).1
    have hpiece : Substring.piece q (Substring.interior G l a b) q' =
        (if q = x then [] else [q]) ++ mid ++ [s', q'] := by
      rw [hin]
      by_cases hq : q = x
      · rw [if_pos hq, if_pos hq]
        unfold Substring.piece
        cases mid with
        | nil =>
          simp only [List.nil_append, List.cons.injEq] at hx
          simp [hq, hx.1]
        | cons y mid =>
          simp only [List.cons_append, List.cons.injEq] at hx
          obtain ⟨rfl, hx⟩ := hx
          rw [if_neg (by simp), if_neg, if_neg]
          · simp [hq]
          · rw [List.cons_append, List.tail_cons, List.getLast?_append]
            simpa using hp'.ne
          · rw [List.cons_append, List.tail_cons, hx]
            intro hh
            cases mid' with
            | nil => simp at hh
            | cons w mid' =>
              simp only [List.head?_cons, Option.some.injEq] at hh
              exact (List.isChain_cons_cons.1 hch).1 (by rw [hh, hq])
      · rw [if_neg hq, if_neg hq]
        unfold Substring.piece
        rw [if_neg (by simp), if_neg, if_neg]
        · simp
        · rw [List.getLast?_append]
          simpa using hp'.ne
        · rw [hx]
          intro hh
          simp only [List.head?_cons, Option.some.injEq] at hh
          exact hq hh.symm
    rw [hpiece]
    have hbody : ∀ sg ∈ segs (mid ++ [s', q']), PieceOf G l sg.1 sg.2 := by
      intro sg hsg
      rw [MatchRoute.segs_snoc] at hsg
      rcases List.mem_append.1 hsg with hsg | hsg
      · exact pieceOf_seg hm (hmid sg hsg)
      · simp only [List.mem_singleton] at hsg
        rw [hsg]; exact hlast
    refine ⟨?_, ?_⟩
    swap
    · have e1 : CandEdge.total G ((if q = x then [] else [q]) ++ mid ++ [s', q']) =
          G.len q x + CandEdge.total G (x :: mid') + G.len s' q' := by
        have e2 : CandEdge.total G (mid ++ [s', q']) = CandEdge.total G (x :: mid') + G.len s' q' := by
          rw [total_snoc2, hx]
        by_cases hq : q = x
        · rw [if_pos hq, List.nil_append, e2, hq, hm.self, zero_add]
        · rw [if_neg hq, List.append_assoc, show mid ++ [s', q'] = (mid ++ [s']) ++ [q'] by simp, hx]
          rw [show mid ++ [s', q'] = (mid ++ [s']) ++ [q'] by simp, hx] at e2
          show G.len q x + CandEdge.total G (x :: mid' ++ [q']) = _
          rw [e2, add_assoc]
      have e3 : CandEdge.total G (pre' ++ [s']) = CandEdge.total G (pre ++ [s]) + (G.len s x + CandEdge.total G (x :: mid')) := by
        rw [m1, show pre ++ s :: mid ++ [s'] = pre ++ s :: (mid ++ [s']) by simp, hx, CandEdge.total_append G pre s]; rfl
      have h3 := hp.between
      unfold Between at h3
      rw [e1, hp.dist, hp'.dist, e3, ← h3]
      abel
    intro sg hsg
    by_cases hq : q = x
    · rw [if_pos hq] at hsg
      exact hbody sg hsg
    · rw [if_neg hq, List.append_assoc, show mid ++ [s', q'] = (mid ++ [s']) ++ [q'] by simp, hx] at hsg
      simp only [List.cons_append, List.nil_append] at hsg
      rw [MatchRoute.segs_cons2] at hsg
      rcases List.mem_cons.1 hsg with rfl | hsg
      · exact hfirst
      · refine hbody sg ?_
        rw [show mid ++ [s', q'] = (mid ++ [s']) ++ [q'] by simp, hx]
        exact hsg
  · -- on the same segment
    have e := hp.line.symm.trans hp'.line
    obtain ⟨rfl, e2⟩ := List.append_inj e hk
    simp only [List.cons.injEq] at e2
    obtain ⟨rfl, rfl, rfl⟩ := e2
    have hle : G.len s q ≤ G.len s q' := by
      have := hp.dist ▸ hp'.dist ▸ hab
      simpa using this
    have hb := h.straight s t q q' hp.between hp'.between hle
    have hlt : a < b := by
      rw [hp.dist, hp'.dist]
      have h3 := hm.pos q q' hne
      unfold Between at hb
      rw [← hb]
      simpa using h3
    refine ⟨hlt, ?_⟩
    have hin : Substring.interior G l a b = [] := by
      unfold Substring.interior
      rw [hp.line, marks_split hm, List.filter_append, CandEdge.filter_none, CandEdge.filter_none]
      · rfl
      · intro m hmm
        have := (CandEdge.M_range hm _ _ m hmm).1
        simp [not_lt.2 (b2.trans this)]
      · intro m hmm
        have := (CandEdge.M_range hm _ _ m hmm).2
        rw [zero_add] at this
        simp [not_lt.2 (this.trans a1.le)]
    rw [hin]
    refine ⟨?_, ?_⟩
    swap
    · simp only [Substring.piece, if_true, CandEdge.total, add_zero]
      unfold Between at hb
      rw [hp.dist, hp'.dist, ← hb]
      abel
    intro sg hsg
    simp only [Substring.piece, if_true, segs, List.tail_cons, List.zip_cons_cons, List.zip_nil_right, List.mem_singleton] at hsg
    rw [hsg]
    exact ⟨s, t, hseg, hp.between, hp'.between, hb⟩
  · -- the second place cannot be on an earlier segment
    exfalso
    have e := hp'.line.symm.trans hp.line
    rw [List.append_eq_append_iff] at e
    rcases e with ⟨z, e1, e2⟩ | ⟨z, e1, e2⟩
    · cases z with
      | nil => simp at e1; rw [e1] at hk; exact absurd hk (lt_irrefl _)
      | cons x z =>
        simp only [List.cons_append, List.cons.injEq] at e2
        obtain ⟨rfl, e2⟩ := e2
        have : CandEdge.total G (pre' ++ [s', t']) ≤ CandEdge.total G (pre ++ [s]) := by
          rw [e1]
          cases z with
          | nil =>
            simp only [List.nil_append, List.cons.injEq] at e2
            rw [e2.1]; simp
          | cons y z =>
            simp only [List.cons_append, List.cons.injEq] at e2
            rw [e2.1, show pre' ++ s' :: y :: z ++ [s] = pre' ++ s' :: y :: (z ++ [s]) by simp, total_two G pre' s' y (z ++ [s])]
            have := CandEdge.total_nonneg hm (y :: (z ++ [s]))
            simpa using this
        exact absurd (lt_of_lt_of_le a1 hab) (not_lt.2 (b2.trans this))
    · rw [e1] at hk; simp at hk

/-! ### Paths of the network -/

theorem mem_outs (n : Net V P) (v w : V) (i : Nat) :
    (w, i) ∈ n.outs v ↔ ∃ e, n.edges[i]? = some e ∧ e.source = v ∧ e.target = w := by
  unfold Net.outs
  rw [List.mem_filterMap]
  constructor
  · rintro ⟨⟨e, k⟩, h1, h2⟩
    rw [List.mem_zipIdx_iff_getElem?] at h1
    simp only at h1 h2
    split_ifs at h2 with hv
    simp only [Option.some.injEq, Prod.mk.injEq] at h2
    exact ⟨e, h2.2 ▸ h1, hv, h2.1⟩
  · rintro ⟨e, h1, h2, h3⟩
    exact ⟨(e, i), List.mem_zipIdx_iff_getElem?.2 h1, by simp [h2, h3]⟩

/-- Every line runs from the position of the source to that of the target, and repeats no point. -/
structure Laid (n : Net V P) (pos : V → P) : Prop where
  size : ∀ e ∈ n.edges, 2 ≤ e.line.length
  chain : ∀ e ∈ n.edges, e.line.IsChain (· ≠ ·)
  first : ∀ e ∈ n.edges, e.line.head? = some (pos e.source)
  last : ∀ e ∈ n.edges, e.line.getLast? = some (pos e.target)

theorem line_eq (n : Net V P) {i : Nat} {e : Edge V P} (h : n.edges[i]? = some e) : n.line i = e.line := by
  rw [Net.line, h]

theorem length_total {G : Geo P R A} (hm : Metric G) {l : List P} (h2 : 2 ≤ l.length) (hc : l.IsChain (· ≠ ·)) :
    plainLength G l = some (CandEdge.total G l) := by
  match l, h2 with
  | x :: y :: l, _ => exact CandEdge.plainLength_eq hm hc

theorem weight_total {G : Geo P R A} (hm : Metric G) {l : List P} (h2 : 2 ≤ l.length) (hc : l.IsChain (· ≠ ·)) :
    (weight G l).1 = CandEdge.total G l := by
  show max 0 ((plainLength G l).getD 0) = _
  rw [length_total hm h2 hc]
  exact max_eq_right (CandEdge.total_nonneg hm l)

theorem cost_sum (ws : List (Weight R)) : SP.cost R ws = (ws.map Subtype.val).sum := by
  have : ∀ (ws : List (Weight R)) (a : R), ws.foldl SP.Cost.add a = a + (ws.map Subtype.val).sum := by
    intro ws
    induction ws with
    | nil => intro a; simp
    | cons w ws ih => intro a; rw [List.foldl_cons, ih, List.map_cons, List.sum_cons]; exact add_assoc _ _ _
  rw [SP.cost, this]
  exact zero_add _

theorem walk_cons {W : Type} {g : SP.Graph V W} {a b c : V} {w : W} {ws : List W} (h : (b, w) ∈ g a) (hw : SP.Walk g b c ws) :
    SP.Walk g a c (w :: ws) := by
  induction hw with
  | nil => exact .snoc (ws := []) .nil h
  | snoc _ h2 ih => exact .snoc (ws := w :: _) ih h2

/-- The lines of a path: references to lines of edges, one attached to the other, from one vertex to another; the sum of
their lengths is the cost of a walk and not more than that of the path. -/
theorem path_lines {n : Net V P} {pos : V → P} (hn : Laid n pos) {G : Geo P R A} (hm : Metric G) {p : List V}
    {ws : List (Weight R)} (hp : SP.VPath (n.graph G) p ws) {v w : V} (hv : p.head? = some v) (hw : p.getLast? = some w) :
    ∃ refs : List (Ref P), n.routeOf (Extract.extractRoute (n.adj G) p) = Route.ofRefs refs ∧
      (∀ x ∈ refs, ∃ e, n.edges[x.addr]? = some e ∧ x.line = e.line) ∧ Connected (refs.map Ref.line) ∧
      Leads (refs.map Ref.line) (pos v) (pos w) ∧
      (refs.map fun x => CandEdge.total G x.line).sum ≤ SP.cost R ws ∧
      ∃ ws', SP.Walk (n.graph G) v w ws' ∧ SP.cost R ws' = (refs.map fun x => CandEdge.total G x.line).sum := by
  have hmem : ∀ {a b : V} {l : Extract.Line R}, (b, l) ∈ n.adj G a →
      ∃ e ∈ n.edges, n.edges[l.name]? = some e ∧ e.source = a ∧ e.target = b ∧ n.line l.name = e.line ∧ l.empty = false ∧
        l.len = some (CandEdge.total G e.line) := by
    intro a b l hl
    unfold Net.adj at hl
    obtain ⟨⟨b', i⟩, h1, h2⟩ := List.mem_map.1 hl
    obtain ⟨e, e1, e2, e3⟩ := (mem_outs n a b' i).1 h1
    simp only [Prod.mk.injEq] at h2
    obtain ⟨rfl, rfl⟩ := h2
    have he : e ∈ n.edges := List.mem_of_getElem? e1
    refine ⟨e, he, e1, e2, e3, line_eq n e1, ?_, ?_⟩
    · have := hn.size e he
      rw [line_eq n e1]
      simp only [decide_eq_false_iff_not]
      rintro h0; rw [h0] at this; simp at this
    · rw [line_eq n e1]; exact length_total hm (hn.size e he) (hn.chain e he)
  have hmeas : Extract.Measured (n.adj G) := by
    intro a b l hl _ hnone
    obtain ⟨e, _, _, _, _, _, _, h⟩ := hmem hl
    rw [h] at hnone; cases hnone
  have hjoin : ∀ x ∈ Extract.pairs p, ∃ l, (x.2, l) ∈ n.adj G x.1 ∧ l.empty = false := by
    clear hv hw
    induction hp with
    | single a => simp [Extract.pairs]
    | cons h1 h2 ih =>
      rename_i a b p w ws
      intro x hx
      rw [Extract.pairs, List.mem_cons] at hx
      rcases hx with rfl | hx
      · unfold Net.graph at h1
        obtain ⟨⟨b', i⟩, h3, h4⟩ := List.mem_map.1 h1
        simp only [Prod.mk.injEq] at h4
        obtain ⟨rfl, rfl⟩ := h4
        have : (b', (⟨i, decide (n.line i = []), plainLength G (n.line i)⟩ : Extract.Line R)) ∈ n.adj G a :=
          List.mem_map.2 ⟨(b', i), h3, rfl⟩
        obtain ⟨e, _, _, _, _, _, h5, _⟩ := hmem this
        exact ⟨_, this, h5⟩
      · exact ih x hx
  obtain ⟨h1, h2⟩ := Extract.extract_route_partial (n.adj G) hmeas p hjoin
  have hpn : p ≠ [] := by rintro rfl; simp at hv
  have hroute : n.routeOf (Extract.extractRoute (n.adj G) p) =
      Route.ofRefs ((Extract.edgesOf (n.adj G) p).map fun l => ⟨l.name, n.line l.name⟩) := by
    rw [h2, if_neg hpn]
    split_ifs with hl
    · obtain ⟨a, rfl⟩ := List.length_eq_one_iff.1 hl
      simp [Net.routeOf, Extract.edgesOf]
    · rfl
  refine ⟨_, hroute, ?_⟩
  clear hroute h2 hjoin hpn
  generalize Extract.edgesOf (n.adj G) p = ls at h1
  induction hp generalizing v ls with
  | single a =>
    simp only [List.head?_cons, List.getLast?_singleton, Option.some.injEq] at hv hw
    subst hv hw
    rw [show Extract.pairs [a] = [] from rfl] at h1
    cases h1
    exact ⟨by simp, by simp [Connected, nonempty], .inl ⟨rfl, rfl⟩, by simp [cost_sum], [], .nil, by simp [cost_sum]⟩
  | cons h3 h4 ih =>
    rename_i a b p x ws
    simp only [List.head?_cons, Option.some.injEq] at hv
    subst hv
    rw [List.getLast?_cons_cons] at hw
    rw [Extract.pairs] at h1
    cases h1 with
    | cons h5 h6 =>
      rename_i l ls
      obtain ⟨i1, i2, i3, i4, ws', i5, i6⟩ := ih (v := b) (by simp) hw ls h6
      obtain ⟨e, he, e1, e2, e3, e4, e5, e6⟩ := hmem h5.1
      have hhead : ((ls.map fun l => (⟨l.name, n.line l.name⟩ : Ref P)).map Ref.line).flatten = [] ∨
          ((ls.map fun l => (⟨l.name, n.line l.name⟩ : Ref P)).map Ref.line).flatten.head? = some (pos b) := by
        rcases i3 with ⟨i3, _⟩ | ⟨i3, _⟩
        · exact .inl i3
        · exact .inr i3
      have hne : e.line ≠ [] := by have := hn.size e he; rintro h0; rw [h0] at this; simp at this
      have hall : ∀ y ∈ ls, n.line y.name ≠ [] := by
        intro y hy
        obtain ⟨e', k1, k2⟩ := i1 ⟨y.name, n.line y.name⟩ (List.mem_map.2 ⟨y, hy, rfl⟩)
        simp only at k1 k2
        rw [k2]
        have := hn.size e' (List.mem_of_getElem? k1)
        rintro h0; rw [h0] at this; simp at this
      have hlead1 : Leads [e.line] (pos a) (pos b) := by
        right
        subst e2 e3
        simp [hn.first e he, hn.last e he]
      refine ⟨?_, ?_, ?_, ?_, ?_⟩
      · intro y hy
        rw [List.map_cons, List.mem_cons] at hy
        rcases hy with rfl | hy
        · exact ⟨e, e1, e4⟩
        · exact i1 y hy
      · have := connected_append (a := [e.line]) (b := (ls.map fun l => (⟨l.name, n.line l.name⟩ : Ref P)).map Ref.line)
          (by simp [Connected, nonempty, hne]) i2 hlead1 i3
        simpa [e4] using this
      · have := leads_append hlead1 i3
        simpa [e4] using this
      · rw [cost_sum, List.map_cons, List.map_cons, List.map_cons, List.sum_cons, List.sum_cons, ← cost_sum]
        refine add_le_add ?_ i4
        show CandEdge.total G (n.line l.name) ≤ x.1
        rw [e4]
        unfold Net.graph at h3
        obtain ⟨⟨b', i⟩, h7, h8⟩ := List.mem_map.1 h3
        simp only [Prod.mk.injEq] at h8
        obtain ⟨rfl, rfl⟩ := h8
        have hin : (b', (⟨i, decide (n.line i = []), plainLength G (n.line i)⟩ : Extract.Line R)) ∈ n.adj G a :=
          List.mem_map.2 ⟨(b', i), h7, rfl⟩
        obtain ⟨e', he', k1, k2, k3, k4, k5, k6⟩ := hmem hin
        have := h5.2.2 _ hin k5 _ _ e6 k6
        simp only at k4
        rw [k4, weight_total hm (hn.size e' he') (hn.chain e' he')]
        exact this
      · refine ⟨weight G (n.line l.name) :: ws', walk_cons ?_ i5, ?_⟩
        · unfold Net.graph
          exact List.mem_map.2 ⟨(b, l.name), (mem_outs n a b l.name).2 ⟨e, e1, e2, e3⟩, rfl⟩
        · rw [cost_sum, List.map_cons, List.map_cons, List.map_cons, List.sum_cons, List.sum_cons, ← cost_sum, i6, e4,
            weight_total hm (hn.size e he) (hn.chain e he)]

end MM.Pipe
