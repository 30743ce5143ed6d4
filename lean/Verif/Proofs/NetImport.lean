import Verif.Model.NetImport
import Mathlib.Algebra.Order.Monoid.Unbundled.Basic
import Mathlib.Data.List.Nodup
import Mathlib.Algebra.BigOperators.Group.List.Basic
import Mathlib.Tactic.SplitIfs

/-!
# Helper lemmas for network preparation
-/

set_option autoImplicit false
set_option linter.unusedSectionVars false

namespace MM.Net

variable {P : Type} [DecidableEq P]

/-- Well formed networks: descriptors are unique, edges join vertices of the network, and their lines run from the
position of the source to that of the target. -/
structure WF (pos : Nat → P) (g : Net P) : Prop where
  nodup : g.verts.Nodup
  eids : (g.edges.map NEdge.eid).Nodup
  fresh : ∀ e ∈ g.edges, e.eid < g.next
  src : ∀ e ∈ g.edges, e.src ∈ g.verts
  tgt : ∀ e ∈ g.edges, e.tgt ∈ g.verts
  head : ∀ e ∈ g.edges, e.line.head? = some (pos e.src)
  last : ∀ e ∈ g.edges, e.line.getLast? = some (pos e.tgt)

theorem WF.inj {pos : Nat → P} {g : Net P} (h : WF pos g) {a b : NEdge P} (ha : a ∈ g.edges) (hb : b ∈ g.edges)
    (hab : a.eid = b.eid) : a = b :=
  List.inj_on_of_nodup_map h.eids ha hb hab

theorem mem_ins {g : Net P} {v : Nat} {e : NEdge P} : e ∈ g.ins v ↔ e ∈ g.edges ∧ e.tgt = v := by
  simp [Net.ins]

theorem mem_outs {g : Net P} {v : Nat} {e : NEdge P} : e ∈ g.outs v ↔ e ∈ g.edges ∧ e.src = v := by
  simp [Net.outs]

/-! ### Lines -/

section Length
variable {R : Type} [AddCommMonoid R]

/-- Length of a line for a distance of points. -/
def lineLen (d : P → P → R) : List P → R
  | a :: b :: rest => d a b + lineLen d (b :: rest)
  | _ => 0

theorem lineLen_merge (d : P → P → R) (a b : List P) (h : a.getLast? = b.head?) :
    lineLen d (a ++ b.tail) = lineLen d a + lineLen d b := by
  induction a with
  | nil =>
    cases b with
    | nil => simp [lineLen]
    | cons y b => simp at h
  | cons x a ih =>
    cases a with
    | nil =>
      cases b with
      | nil => simp at h
      | cons y b =>
        simp at h
        subst h
        simp [lineLen]
    | cons z a =>
      have h' : (z :: a).getLast? = b.head? := by rw [← h]; simp
      have := ih h'
      simp only [List.cons_append, lineLen] at this ⊢
      rw [this, add_assoc]

/-- Total length of the network. -/
def totalLen (d : P → P → R) (g : Net P) : R := (g.edges.map (fun e => lineLen d e.line)).sum

end Length

/-! ### One merge -/

theorem mergeLines_ok {pos : Nat → P} {g : Net P} (h : WF pos g) {i o : NEdge P} (hi : i ∈ g.edges) (ho : o ∈ g.edges)
    (hm : i.tgt = o.src) : mergeLines i.line o.line = .ok (i.line ++ o.line.tail) := by
  have h1 := h.last i hi
  have h2 := h.head o ho
  have ho' : o.line ≠ [] := by intro hn; rw [hn] at h2; cases h2
  have hi' : i.line ≠ [] := by intro hn; rw [hn] at h1; cases h1
  unfold mergeLines
  rw [if_neg ho', if_neg hi', if_pos]
  rw [h1, h2, hm]

/-- The edge that replaces a pair. -/
def joined (g : Net P) (p : NEdge P × NEdge P) : NEdge P :=
  ⟨g.next, p.1.name, p.1.src, p.2.tgt, p.1.line ++ p.2.line.tail⟩

/-- The edges after a merge. -/
def rest (g : Net P) (p : NEdge P × NEdge P) : List (NEdge P) :=
  g.edges.filter (fun e => decide (e.eid ≠ p.1.eid ∧ e.eid ≠ p.2.eid))

theorem mergeOne_ok {pos : Nat → P} {g : Net P} (h : WF pos g) {p : NEdge P × NEdge P} (hi : p.1 ∈ g.edges)
    (ho : p.2 ∈ g.edges) (hm : p.1.tgt = p.2.src) :
    mergeOne g p = .ok ⟨dropIsolated (rest g p ++ [joined g p]) p.1.tgt g.verts, rest g p ++ [joined g p], g.next + 1⟩ := by
  have hl : p.1.line ≠ [] := by
    intro hn
    have := h.last _ hi
    rw [hn] at this; cases this
  unfold mergeOne
  rw [mergeLines_ok h hi ho hm]
  simp [Outcome.map, replaced, rest, joined, hl]

theorem mem_dropIsolated {edges : List (NEdge P)} {v x : Nat} {verts : List Nat} (hx : x ∈ dropIsolated edges v verts) :
    x ∈ verts := by
  unfold dropIsolated at hx
  split_ifs at hx
  · exact (List.mem_filter.1 hx).1
  · exact hx

theorem getLast?_merge (a b : List P) (hb : b.tail ≠ [] ∨ a.getLast? = b.getLast?) (hb0 : b ≠ []) :
    (a ++ b.tail).getLast? = b.getLast? := by
  cases b with
  | nil => exact absurd rfl hb0
  | cons y b =>
    cases b with
    | nil =>
      simp only [List.tail_cons, ne_eq, not_true_eq_false, false_or] at hb
      simpa using hb
    | cons z b =>
      simp only [List.tail_cons]
      rw [List.getLast?_append, List.getLast?_cons_cons]
      cases h : (z :: b).getLast? with
      | none => simp at h
      | some x => rfl

theorem mergeOne_wf {pos : Nat → P} {g : Net P} (h : WF pos g) {p : NEdge P × NEdge P} (hi : p.1 ∈ g.edges)
    (ho : p.2 ∈ g.edges) (hm : p.1.tgt = p.2.src) :
    WF pos ⟨dropIsolated (rest g p ++ [joined g p]) p.1.tgt g.verts, rest g p ++ [joined g p], g.next + 1⟩ := by
  have hrest : ∀ e ∈ rest g p, e ∈ g.edges := fun e he => (List.mem_filter.1 he).1
  have hverts : ∀ x ∈ g.verts, (∃ e ∈ rest g p ++ [joined g p], e.src = x ∨ e.tgt = x) →
      x ∈ dropIsolated (rest g p ++ [joined g p]) p.1.tgt g.verts := by
    intro x hx ⟨e, he, hex⟩
    unfold dropIsolated
    split_ifs with hall
    · rw [List.mem_filter, decide_eq_true_eq]
      refine ⟨hx, ?_⟩
      rw [List.all_eq_true] at hall
      have := hall e he
      simp only [decide_eq_true_eq] at this
      rintro rfl
      rcases hex with hex | hex
      · exact this.1 hex
      · exact this.2 hex
    · exact hx
  constructor
  · unfold dropIsolated
    split_ifs
    · exact h.nodup.filter _
    · exact h.nodup
  · simp only [List.map_append, List.map_cons, List.map_nil]
    rw [List.nodup_append]
    refine ⟨?_, by simp, ?_⟩
    · exact (List.filter_sublist.map _).nodup h.eids
    · intro x hx y hy
      simp only [joined, List.mem_singleton] at hy
      obtain ⟨e, he, rfl⟩ := List.mem_map.1 hx
      have := h.fresh e (hrest e he)
      omega
  · intro e he
    rcases List.mem_append.1 he with he | he
    · have := h.fresh e (hrest e he); simp only; omega
    · simp only [joined, List.mem_singleton] at he
      subst he; simp
  · intro e he
    refine hverts _ ?_ ⟨e, he, Or.inl rfl⟩
    rcases List.mem_append.1 he with he | he
    · exact h.src e (hrest e he)
    · simp only [joined, List.mem_singleton] at he
      subst he; exact h.src p.1 hi
  · intro e he
    refine hverts _ ?_ ⟨e, he, Or.inr rfl⟩
    rcases List.mem_append.1 he with he | he
    · exact h.tgt e (hrest e he)
    · simp only [joined, List.mem_singleton] at he
      subst he; exact h.tgt p.2 ho
  · intro e he
    rcases List.mem_append.1 he with he | he
    · exact h.head e (hrest e he)
    · simp only [joined, List.mem_singleton] at he
      subst he
      have := h.head _ hi
      cases hl : p.1.line with
      | nil => rw [hl] at this; cases this
      | cons x l => rw [hl] at this; simpa using this
  · intro e he
    rcases List.mem_append.1 he with he | he
    · exact h.last e (hrest e he)
    · simp only [joined, List.mem_singleton] at he
      subst he
      have h2 := h.head _ ho
      have h3 := h.last _ ho
      have hne : p.2.line ≠ [] := by intro hn; rw [hn] at h3; cases h3
      simp only
      rw [getLast?_merge _ _ ?_ hne]
      · exact h3
      · by_cases ht : p.2.line.tail = []
        · right
          rw [h.last _ hi, h3]
          cases hl : p.2.line with
          | nil => exact absurd hl hne
          | cons y l =>
            rw [hl] at ht h2 h3
            simp only [List.tail_cons] at ht
            subst ht
            simp at h2 h3
            rw [hm, ← h2, ← h3]
        · exact Or.inl ht

theorem filter_pair_perm {g : Net P} (hn : (g.edges.map NEdge.eid).Nodup) {i o : NEdge P} (hi : i ∈ g.edges)
    (ho : o ∈ g.edges) (hne : i.eid ≠ o.eid) : (rest g (i, o) ++ [i, o]).Perm g.edges := by
  have hnd : g.edges.Nodup := List.Nodup.of_map _ hn
  have inj : ∀ a ∈ g.edges, ∀ b ∈ g.edges, a.eid = b.eid → a = b :=
    fun a ha b hb hab => List.inj_on_of_nodup_map hn ha hb hab
  rw [List.perm_ext_iff_of_nodup ?_ hnd]
  · intro a
    simp only [rest, List.mem_append, List.mem_filter, decide_eq_true_eq, List.mem_cons, List.not_mem_nil, or_false]
    constructor
    · rintro (⟨ha, -⟩ | rfl | rfl) <;> assumption
    · intro ha
      by_cases h1 : a.eid = i.eid
      · exact Or.inr (Or.inl (inj a ha i hi h1))
      · by_cases h2 : a.eid = o.eid
        · exact Or.inr (Or.inr (inj a ha o ho h2))
        · exact Or.inl ⟨ha, h1, h2⟩
  · rw [List.nodup_append]
    refine ⟨hnd.filter _, ?_, ?_⟩
    · simp only [List.nodup_cons, List.mem_singleton, List.not_mem_nil, not_false_eq_true, List.nodup_nil, and_true]
      intro h; exact hne (by rw [h])
    · intro a ha b hb hab
      subst hab
      simp only [rest, List.mem_filter, decide_eq_true_eq] at ha
      simp only [List.mem_cons, List.not_mem_nil, or_false] at hb
      rcases hb with rfl | rfl
      · exact ha.2.1 rfl
      · exact ha.2.2 rfl

section Length
variable {R : Type} [AddCommMonoid R]

theorem mergeOne_total (d : P → P → R) {pos : Nat → P} {g : Net P} (h : WF pos g) {i o : NEdge P} (hi : i ∈ g.edges)
    (ho : o ∈ g.edges) (hm : i.tgt = o.src) (hne : i.eid ≠ o.eid) :
    ((rest g (i, o) ++ [joined g (i, o)]).map (fun e => lineLen d e.line)).sum = totalLen d g := by
  have hp := (filter_pair_perm h.eids hi ho hne).map (fun e => lineLen d e.line)
  have hjoin : lineLen d (joined g (i, o)).line = lineLen d i.line + lineLen d o.line := by
    apply lineLen_merge
    rw [h.last _ hi, h.head _ ho, hm]
  unfold totalLen
  rw [← hp.sum_eq]
  simp only [List.map_append, List.map_cons, List.map_nil, List.sum_append, List.sum_cons, List.sum_nil, hjoin]
  simp

/-! ### Walks -/

/-- Walks along edges with their length. -/
inductive Walk (d : P → P → R) (es : List (NEdge P)) : Nat → Nat → R → Prop where
  | nil (a : Nat) : Walk d es a a 0
  | cons {b : Nat} {r : R} (e : NEdge P) (he : e ∈ es) (hw : Walk d es e.tgt b r) : Walk d es e.src b (lineLen d e.line + r)

theorem Walk.mono {d : P → P → R} {es es' : List (NEdge P)} (h : ∀ e ∈ es, e ∈ es') {a b : Nat} {r : R}
    (w : Walk d es a b r) : Walk d es' a b r := by
  induction w with
  | nil a => exact .nil a
  | cons e he _ ih => exact .cons e (h e he) ih

/-- Every step of a walk may be replaced by a walk. -/
theorem Walk.refine {d : P → P → R} {es es' : List (NEdge P)}
    (h : ∀ e ∈ es, ∀ b r, Walk d es' e.tgt b r → Walk d es' e.src b (lineLen d e.line + r)) {a b : Nat} {r : R}
    (w : Walk d es a b r) : Walk d es' a b r := by
  induction w with
  | nil a => exact .nil a
  | cons e he _ ih => exact h e he _ _ ih

theorem mergeOne_walk_back (d : P → P → R) {pos : Nat → P} {g : Net P} (h : WF pos g) {p : NEdge P × NEdge P}
    (hi : p.1 ∈ g.edges) (ho : p.2 ∈ g.edges) (hm : p.1.tgt = p.2.src) {a b : Nat} {r : R}
    (w : Walk d (rest g p ++ [joined g p]) a b r) : Walk d g.edges a b r := by
  refine w.refine ?_
  intro e he b r hw
  rcases List.mem_append.1 he with he | he
  · exact .cons e (List.mem_filter.1 he).1 hw
  · rw [List.mem_singleton] at he
    subst he
    have hjoin : lineLen d (joined g p).line = lineLen d p.1.line + lineLen d p.2.line := by
      apply lineLen_merge
      rw [h.last _ hi, h.head _ ho, hm]
    rw [hjoin, add_assoc]
    refine .cons p.1 hi ?_
    rw [hm]
    exact .cons p.2 ho hw

end Length

/-! ### The merges of a vertex -/

/-- What `_populate_merges` guarantees. -/
structure PairsOk (g : Net P) (v : Nat) (ps : List (NEdge P × NEdge P)) : Prop where
  mem : ∀ p ∈ ps, p.1 ∈ g.ins v ∧ p.2 ∈ g.outs v
  diff : ∀ p ∈ ps, p.1.src ≠ p.2.tgt
  distinct : ps.Pairwise (fun p q => p.1.eid ≠ q.1.eid ∧ p.2.eid ≠ q.2.eid)

theorem merges_ok (complete : Bool) (g : Net P) (v : Nat) : PairsOk g v (merges complete g v) := by
  have key : ∀ (l : List (NEdge P × NEdge P)) (acc : List (NEdge P × NEdge P)),
      (∀ p ∈ l, p.1 ∈ g.ins v ∧ p.2 ∈ g.outs v) → PairsOk g v acc → PairsOk g v (l.foldl (addMerge complete) acc) := by
    intro l
    induction l with
    | nil => intro acc _ h; exact h
    | cons p l ih =>
      intro acc hl h
      rw [List.foldl_cons]
      apply ih _ (fun q hq => hl q (by simp [hq]))
      unfold addMerge
      split_ifs with h1 h2 h3 h4
      · exact h
      · exact h
      · constructor
        · intro q hq
          rcases List.mem_append.1 hq with hq | hq
          · exact h.mem q hq
          · rw [List.mem_singleton] at hq; subst hq; exact hl q (by simp)
        · intro q hq
          rcases List.mem_append.1 hq with hq | hq
          · exact h.diff q hq
          · rw [List.mem_singleton] at hq; subst hq; exact h2.2
        · rw [List.pairwise_append]
          refine ⟨h.distinct, by simp, ?_⟩
          intro q hq q' hq'
          rw [List.mem_singleton] at hq'
          subst hq'
          simp only [List.any_eq_true, not_exists, not_and, Bool.or_eq_true, decide_eq_true_eq, not_or] at h4
          exact h4 q hq
      · exact h
      · exact h
  unfold merges
  apply key
  · intro p hp
    simp only [List.mem_flatMap, List.mem_map] at hp
    obtain ⟨i, hi, o, ho, rfl⟩ := hp
    exact ⟨hi, ho⟩
  · exact ⟨by simp, by simp, List.Pairwise.nil⟩

/-- What `_is_mergeable` guarantees about the matches it builds. -/
structure MatchOk (ins outs : List (NEdge P)) (ps : List (NEdge P × NEdge P)) : Prop where
  mem : ∀ p ∈ ps, p.1 ∈ ins ∧ p.2 ∈ outs
  rel : ∀ p ∈ ps, p.1.src = p.2.tgt ∧ p.1.eid ≠ p.2.eid
  distinct : ps.Pairwise (fun p q => p.2.eid ≠ q.2.eid)
  back : ∀ p ∈ ps, p.1.line = p.2.line.reverse

theorem addPair_ok {ins outs : List (NEdge P)} {ps : List (NEdge P × NEdge P)} (h : MatchOk ins outs ps) {i o : NEdge P}
    (hi : i ∈ ins) (ho : o ∈ outs) : MatchOk ins outs (addPair i ps o) ∧ ∀ p ∈ ps, p ∈ addPair i ps o := by
  unfold addPair
  split_ifs with h1 h2 h3 h4
  · exact ⟨h, fun _ hp => hp⟩
  · exact ⟨h, fun _ hp => hp⟩
  · refine ⟨⟨?_, ?_, ?_, ?_⟩, fun p hp => by simp [hp]⟩
    · intro q hq
      rcases List.mem_append.1 hq with hq | hq
      · exact h.mem q hq
      · rw [List.mem_singleton] at hq; subst hq; exact ⟨hi, ho⟩
    · intro q hq
      rcases List.mem_append.1 hq with hq | hq
      · exact h.rel q hq
      · rw [List.mem_singleton] at hq; subst hq; exact ⟨h2.2, fun hh => h1 hh.symm⟩
    · rw [List.pairwise_append]
      refine ⟨h.distinct, by simp, ?_⟩
      intro q hq q' hq'
      rw [List.mem_singleton] at hq'
      subst hq'
      simp only [List.any_eq_true, not_exists, not_and, decide_eq_true_eq] at h3
      exact h3 q hq
    · intro q hq
      rcases List.mem_append.1 hq with hq | hq
      · exact h.back q hq
      · rw [List.mem_singleton] at hq; subst hq
        simp only [reversed, Bool.and_eq_true, decide_eq_true_eq] at h4
        exact h4.2
  · exact ⟨h, fun _ hp => hp⟩
  · exact ⟨h, fun _ hp => hp⟩

theorem foldl_addPair_ok {ins outs : List (NEdge P)} {i : NEdge P} (hi : i ∈ ins) : ∀ (os : List (NEdge P))
    {ps : List (NEdge P × NEdge P)}, (∀ o ∈ os, o ∈ outs) → MatchOk ins outs ps →
    MatchOk ins outs (os.foldl (addPair i) ps) ∧ ∀ p ∈ ps, p ∈ os.foldl (addPair i) ps := by
  intro os
  induction os with
  | nil => intro ps _ h; exact ⟨h, fun _ hp => hp⟩
  | cons o os ih =>
    intro ps ho h
    obtain ⟨h1, h2⟩ := addPair_ok h hi (ho o (by simp))
    obtain ⟨h3, h4⟩ := ih (fun x hx => ho x (by simp [hx])) h1
    exact ⟨h3, fun p hp => h4 p (h2 p hp)⟩

theorem matchIns_ok {ins outs : List (NEdge P)} : ∀ (is : List (NEdge P)) {ps r : List (NEdge P × NEdge P)},
    (∀ i ∈ is, i ∈ ins) → MatchOk ins outs ps → matchIns outs is ps = some r →
    MatchOk ins outs r ∧ (∀ p ∈ ps, p ∈ r) ∧ ∀ i ∈ is, ∃ p ∈ r, p.1.eid = i.eid := by
  intro is
  induction is with
  | nil =>
    intro ps r _ h hr
    simp only [matchIns, Option.some.injEq] at hr
    subst hr
    exact ⟨h, fun _ hp => hp, by simp⟩
  | cons i is ih =>
    intro ps r hi h hr
    unfold matchIns at hr
    split_ifs at hr with hany
    obtain ⟨h1, h2⟩ := foldl_addPair_ok (i := i) (hi i (by simp)) outs (fun _ ho => ho) h
    obtain ⟨h3, h4, h5⟩ := ih (fun x hx => hi x (by simp [hx])) h1 hr
    refine ⟨h3, fun p hp => h4 p (h2 p hp), ?_⟩
    intro x hx
    rcases List.mem_cons.1 hx with rfl | hx
    · rw [List.any_eq_true] at hany
      obtain ⟨p, hp, hpe⟩ := hany
      exact ⟨p, h4 p hp, of_decide_eq_true hpe⟩
    · exact h5 x hx

/-- Mergeable vertices have one in and one out edge, or two of each that run back along each other. -/
theorem mergeable_shape {pos : Nat → P} {g : Net P} (h : WF pos g) {v : Nat} (hm : isMergeable g v = true) :
    (∃ i o, g.ins v = [i] ∧ g.outs v = [o]) ∨
    ∃ i1 i2 o1 o2, g.ins v = [i1, i2] ∧ (g.outs v = [o1, o2] ∨ g.outs v = [o2, o1]) ∧ i1.src = o1.tgt ∧ i2.src = o2.tgt ∧
      i1.eid ≠ o1.eid ∧ i2.eid ≠ o2.eid ∧ i1.line = o1.line.reverse ∧ i2.line = o2.line.reverse := by
  unfold isMergeable at hm
  split_ifs at hm with h1 h2
  · left
    obtain ⟨i, hi⟩ := List.length_eq_one_iff.1 h1.1
    obtain ⟨o, ho⟩ := List.length_eq_one_iff.1 h1.2
    exact ⟨i, o, hi, ho⟩
  · right
    have hlen : (g.ins v).length = 2 ∧ (g.outs v).length = 2 := by omega
    cases hr : matchIns (g.outs v) (g.ins v) [] with
    | none => rw [hr] at hm; cases hm
    | some r =>
      obtain ⟨hok, -, hall⟩ := matchIns_ok (ins := g.ins v) (outs := g.outs v) _ (fun _ hi => hi)
        ⟨by simp, by simp, List.Pairwise.nil, by simp⟩ hr
      obtain ⟨i1, i2, hi⟩ := List.length_eq_two.1 hlen.1
      obtain ⟨o1, o2, ho⟩ := List.length_eq_two.1 hlen.2
      have eqI : ∀ p ∈ r, ∀ i ∈ g.ins v, p.1.eid = i.eid → p.1 = i := by
        intro p hp i hi he
        exact h.inj (mem_ins.1 (hok.mem p hp).1).1 (mem_ins.1 hi).1 he
      obtain ⟨p1, hp1, he1⟩ := hall i1 (by simp [hi])
      obtain ⟨p2, hp2, he2⟩ := hall i2 (by simp [hi])
      have hp1i := eqI p1 hp1 i1 (by simp [hi]) he1
      have hp2i := eqI p2 hp2 i2 (by simp [hi]) he2
      have hi12 : i1.eid ≠ i2.eid := by
        have hnd : (g.ins v).Nodup := (List.Nodup.of_map _ h.eids).filter _
        rw [hi] at hnd
        simp only [List.nodup_cons, List.mem_singleton] at hnd
        intro hh
        exact hnd.1 (h.inj (mem_ins.1 (by rw [hi]; simp)).1 (mem_ins.1 (show i2 ∈ g.ins v by rw [hi]; simp)).1 hh)
      have hne : p1 ≠ p2 := by
        intro hh
        apply hi12
        rw [← he1, ← he2, hh]
      have hsec : p1.2.eid ≠ p2.2.eid := by
        have := hok.distinct
        rw [List.pairwise_iff_getElem] at this
        obtain ⟨k1, hk1, hg1⟩ := List.getElem_of_mem hp1
        obtain ⟨k2, hk2, hg2⟩ := List.getElem_of_mem hp2
        rcases Nat.lt_trichotomy k1 k2 with hlt | heq | hgt
        · have := this k1 k2 hk1 hk2 hlt
          rw [hg1, hg2] at this
          exact this
        · subst heq
          exact absurd (hg1.symm.trans hg2) hne
        · have := this k2 k1 hk2 hk1 hgt
          rw [hg1, hg2] at this
          exact fun hh => this hh.symm
      have hm1 := (hok.mem p1 hp1).2
      have hm2 := (hok.mem p2 hp2).2
      rw [ho] at hm1 hm2
      simp only [List.mem_cons, List.not_mem_nil, or_false] at hm1 hm2
      refine ⟨i1, i2, p1.2, p2.2, hi, ?_, ?_, ?_, ?_, ?_, ?_, ?_⟩
      · rcases hm1 with hm1 | hm1 <;> rcases hm2 with hm2 | hm2
        · exact absurd (by rw [hm1, hm2]) hsec
        · left; rw [ho, hm1, hm2]
        · right; rw [ho, hm1, hm2]
        · exact absurd (by rw [hm1, hm2]) hsec
      · rw [← hp1i]; exact (hok.rel p1 hp1).1
      · rw [← hp2i]; exact (hok.rel p2 hp2).1
      · rw [← hp1i]; exact (hok.rel p1 hp1).2
      · rw [← hp2i]; exact (hok.rel p2 hp2).2
      · rw [← hp1i]; exact hok.back p1 hp1
      · rw [← hp2i]; exact hok.back p2 hp2

/-- Pairs of edges through `v` that may be merged one after the other. -/
structure Ready (g : Net P) (v : Nat) (ps : List (NEdge P × NEdge P)) : Prop where
  mem : ∀ p ∈ ps, (p.1 ∈ g.edges ∧ p.1.tgt = v) ∧ p.2 ∈ g.edges ∧ p.2.src = v
  off : ∀ p ∈ ps, p.1.src ≠ v ∧ p.2.tgt ≠ v
  distinct : ps.Pairwise (fun p q => p.1.eid ≠ q.1.eid ∧ p.2.eid ≠ q.2.eid)
  cross : ∀ p ∈ ps, ∀ q ∈ ps, p.1.eid ≠ q.2.eid

theorem pair_in_shape {g : Net P} {v : Nat} {i1 i2 o1 o2 : NEdge P} (hi : g.ins v = [i1, i2])
    (ho : g.outs v = [o1, o2] ∨ g.outs v = [o2, o1]) {p : NEdge P × NEdge P} (h1 : p.1 ∈ g.ins v) (h2 : p.2 ∈ g.outs v) :
    (p.1 = i1 ∨ p.1 = i2) ∧ (p.2 = o1 ∨ p.2 = o2) := by
  rw [hi] at h1
  refine ⟨by simpa using h1, ?_⟩
  rcases ho with ho | ho <;> rw [ho] at h2 <;> simp only [List.mem_cons, List.not_mem_nil, or_false] at h2
  · exact h2
  · exact h2.symm

/-- If anything is to be merged at a mergeable vertex then no edge leads from it to itself. -/
theorem no_loop {pos : Nat → P} {g : Net P} (h : WF pos g) {v : Nat} (hm : isMergeable g v = true)
    {p : NEdge P × NEdge P} (h1 : p.1 ∈ g.ins v) (h2 : p.2 ∈ g.outs v) (hd : p.1.src ≠ p.2.tgt) :
    ∀ e ∈ g.edges, e.src = v → e.tgt ≠ v := by
  intro e he hs ht
  have hei : e ∈ g.ins v := mem_ins.2 ⟨he, ht⟩
  have heo : e ∈ g.outs v := mem_outs.2 ⟨he, hs⟩
  rcases mergeable_shape h hm with ⟨i, o, hi, ho⟩ | ⟨i1, i2, o1, o2, hi, ho, ha, hb, hn1, hn2, -⟩
  · rw [hi] at hei h1
    rw [ho] at heo h2
    simp only [List.mem_singleton] at hei heo h1 h2
    apply hd
    rw [h1, h2, ← hei, ← heo, hs, ht]
  · have hp := pair_in_shape hi ho h1 h2
    have hepair := pair_in_shape (p := (e, e)) hi ho hei heo
    simp only at hepair
    obtain ⟨he1, he2⟩ := hepair
    have c1 : ¬(e = i1 ∧ e = o1) := fun ⟨x, y⟩ => hn1 (by rw [← x, ← y])
    have c2 : ¬(e = i2 ∧ e = o2) := fun ⟨x, y⟩ => hn2 (by rw [← x, ← y])
    have hab : i1.src = o2.tgt ∧ i2.src = o1.tgt := by
      rcases he1 with he1 | he1 <;> rcases he2 with he2 | he2
      · exact absurd ⟨he1, he2⟩ c1
      · refine ⟨by rw [← he1, ← he2, hs, ht], ?_⟩
        rw [hb, ← he2, ← ha, ← he1, hs, ht]
      · refine ⟨?_, by rw [← he1, ← he2, hs, ht]⟩
        rw [ha, ← he2, ← hb, ← he1, hs, ht]
      · exact absurd ⟨he1, he2⟩ c2
    apply hd
    rcases hp.1 with q1 | q1 <;> rcases hp.2 with q2 | q2 <;> rw [q1, q2]
    · exact ha
    · exact hab.1
    · exact hab.2
    · exact hb

theorem merges_ready {pos : Nat → P} {g : Net P} (h : WF pos g) {v : Nat} (hm : isMergeable g v = true)
    (complete : Bool) : Ready g v (merges complete g v) := by
  have hok := merges_ok complete g v
  have hnl : ∀ p ∈ merges complete g v, ∀ e ∈ g.edges, e.src = v → e.tgt ≠ v :=
    fun p hp => no_loop h hm (hok.mem p hp).1 (hok.mem p hp).2 (hok.diff p hp)
  have hmem : ∀ p ∈ merges complete g v, (p.1 ∈ g.edges ∧ p.1.tgt = v) ∧ p.2 ∈ g.edges ∧ p.2.src = v :=
    fun p hp => ⟨mem_ins.1 (hok.mem p hp).1, mem_outs.1 (hok.mem p hp).2⟩
  refine ⟨hmem, ?_, hok.distinct, ?_⟩
  · intro p hp
    have := hmem p hp
    exact ⟨fun hh => hnl p hp p.1 this.1.1 hh this.1.2, hnl p hp p.2 this.2.1 this.2.2⟩
  · intro p hp q hq hh
    have h1 := hmem p hp
    have h2 := hmem q hq
    have := h.inj h1.1.1 h2.2.1 hh
    exact hnl p hp p.1 h1.1.1 (by rw [this]; exact h2.2.2) h1.1.2

/-- The merges of all pairs of a vertex. -/
theorem mergeAll_ok {R : Type} [AddCommMonoid R] (d : P → P → R) {pos : Nat → P} {v : Nat} :
    ∀ (ps : List (NEdge P × NEdge P)) {g : Net P}, WF pos g → Ready g v ps →
    ∃ g', mergeAll g ps = .ok g' ∧ WF pos g' ∧ totalLen d g' = totalLen d g ∧ g'.verts.Sublist g.verts ∧
      (∀ x ∈ g.verts, x ≠ v → x ∈ g'.verts) ∧
      (∀ a b r, Walk d g'.edges a b r → Walk d g.edges a b r) ∧
      (∀ e ∈ g.edges, (∀ p ∈ ps, e.eid ≠ p.1.eid ∧ e.eid ≠ p.2.eid) → e ∈ g'.edges) ∧
      (∀ p ∈ ps, ∃ e ∈ g'.edges, e.src = p.1.src ∧ e.tgt = p.2.tgt ∧
        lineLen d e.line = lineLen d p.1.line + lineLen d p.2.line) ∧
      (∀ e ∈ g'.edges, (e ∈ g.edges ∧ ∀ p ∈ ps, e.eid ≠ p.1.eid ∧ e.eid ≠ p.2.eid) ∨ (e.src ≠ v ∧ e.tgt ≠ v)) ∧
      (ps ≠ [] → (∀ e ∈ g'.edges, e.src ≠ v ∧ e.tgt ≠ v) → v ∉ g'.verts) := by
  intro ps
  induction ps with
  | nil =>
    intro g h _
    exact ⟨g, rfl, h, rfl, List.Sublist.refl _, fun _ hx _ => hx, fun _ _ _ hw => hw, fun _ he _ => he, by simp,
      fun e he => Or.inl ⟨he, by simp⟩, by simp⟩
  | cons p ps ih =>
    intro g h hr
    obtain ⟨⟨hi, hit⟩, ho, hos⟩ := hr.mem p (by simp)
    have hm : p.1.tgt = p.2.src := hit.trans hos.symm
    have hwf := mergeOne_wf h hi ho hm
    have hne : p.1.eid ≠ p.2.eid := hr.cross p (by simp) p (by simp)
    have hdist := List.pairwise_cons.1 hr.distinct
    have hkeep : ∀ e ∈ g.edges, e.eid ≠ p.1.eid → e.eid ≠ p.2.eid → e ∈ rest g p ++ [joined g p] := by
      intro e he h1 h2
      simp [rest, he, h1, h2]
    have hr' : Ready ⟨dropIsolated (rest g p ++ [joined g p]) p.1.tgt g.verts, rest g p ++ [joined g p], g.next + 1⟩ v ps := by
      refine ⟨?_, fun q hq => hr.off q (by simp [hq]), hdist.2, fun q hq q' hq' => hr.cross q (by simp [hq]) q' (by simp [hq'])⟩
      intro q hq
      obtain ⟨⟨hqi, hqt⟩, hqo, hqs⟩ := hr.mem q (by simp [hq])
      refine ⟨⟨hkeep _ hqi (fun hh => (hdist.1 q hq).1 hh.symm) (hr.cross q (by simp [hq]) p (by simp)), hqt⟩,
        hkeep _ hqo (fun hh => hr.cross p (by simp) q (by simp [hq]) hh.symm) (fun hh => (hdist.1 q hq).2 hh.symm), hqs⟩
    obtain ⟨g', e1, e2, e3, e4, e4', e5, e6, e7, e8, e9⟩ := ih hwf hr'
    refine ⟨g', ?_, e2, ?_, ?_, ?_, ?_, ?_, ?_, ?_, ?_⟩
    · rw [mergeAll, mergeOne_ok h hi ho hm]; exact e1
    · rw [e3]; exact mergeOne_total d h hi ho hm hne
    · refine e4.trans ?_
      unfold dropIsolated
      simp only
      split_ifs
      · exact List.filter_sublist
      · exact List.Sublist.refl _
    · intro x hx hxv
      apply e4' x _ hxv
      unfold dropIsolated
      split_ifs
      · rw [List.mem_filter]; exact ⟨hx, by simpa [hit] using hxv⟩
      · exact hx
    · intro a b r hw
      exact mergeOne_walk_back d h hi ho hm (e5 a b r hw)
    · intro e he hep
      exact e6 e (hkeep e he (hep p (by simp)).1 (hep p (by simp)).2) (fun q hq => hep q (by simp [hq]))
    · intro q hq
      rcases List.mem_cons.1 hq with rfl | hq
      · refine ⟨joined g q, e6 _ (by simp) ?_, rfl, rfl, ?_⟩
        · intro q' hq'
          have h1 := h.fresh _ (hr.mem q' (by simp [hq'])).1.1
          have h2 := h.fresh _ (hr.mem q' (by simp [hq'])).2.1
          simp only [joined]
          omega
        · apply lineLen_merge
          rw [h.last _ hi, h.head _ ho, hm]
      · exact e7 q hq
    · intro e he
      rcases e8 e he with ⟨he1, he2⟩ | hoff
      · rcases List.mem_append.1 he1 with he1 | he1
        · simp only [rest, List.mem_filter, decide_eq_true_eq] at he1
          left
          refine ⟨he1.1, ?_⟩
          intro q hq
          rcases List.mem_cons.1 hq with rfl | hq
          · exact he1.2
          · exact he2 q hq
        · rw [List.mem_singleton] at he1
          subst he1
          exact Or.inr (hr.off p (by simp))
      · exact Or.inr hoff
    · intro _ hoff
      cases ps with
      | cons q qs => exact e9 (by simp) hoff
      | nil =>
        simp only [mergeAll, Outcome.ok.injEq] at e1
        subst e1
        simp only
        unfold dropIsolated
        rw [if_pos]
        · simp [hit]
        · rw [List.all_eq_true]
          intro e he
          rw [decide_eq_true_eq, hit]
          exact hoff e he

/-- Complete simplification at a vertex where anything is merged: all in edges are merged with all out edges except those
that lead back. -/
theorem merges_complete {pos : Nat → P} {g : Net P} (h : WF pos g) {v : Nat} (hm : isMergeable g v = true)
    (hne : merges true g v ≠ []) :
    (∀ i ∈ g.ins v, ∀ o ∈ g.outs v, i.src ≠ o.tgt → (i, o) ∈ merges true g v) ∧
    (∀ i ∈ g.ins v, ∃ p ∈ merges true g v, p.1 = i) ∧ (∀ o ∈ g.outs v, ∃ p ∈ merges true g v, p.2 = o) := by
  obtain ⟨p0, hp0⟩ := List.exists_mem_of_ne_nil _ hne
  have hok := merges_ok true g v
  have hnl := no_loop h hm (hok.mem p0 hp0).1 (hok.mem p0 hp0).2 (hok.diff p0 hp0)
  have hcross : ∀ i ∈ g.ins v, ∀ o ∈ g.outs v, i.eid ≠ o.eid := by
    intro i hi o ho hh
    have := h.inj (mem_ins.1 hi).1 (mem_outs.1 ho).1 hh
    exact hnl i (mem_ins.1 hi).1 (by rw [this]; exact (mem_outs.1 ho).2) (mem_ins.1 hi).2
  have hmeet : ∀ i ∈ g.ins v, ∀ o ∈ g.outs v, i.tgt = o.src := by
    intro i hi o ho
    rw [(mem_ins.1 hi).2, (mem_outs.1 ho).2]
  rcases mergeable_shape h hm with ⟨i, o, hi, ho⟩ | ⟨i1, i2, o1, o2, hi, ho, ha, hb, hn1, hn2, -⟩
  · have hp := hok.mem p0 hp0
    rw [hi, ho] at hp
    simp only [List.mem_singleton] at hp
    have hp0' : (i, o) ∈ merges true g v := by rw [← hp.1, ← hp.2]; exact hp0
    rw [hi, ho]
    simp only [List.mem_singleton, forall_eq]
    exact ⟨fun _ => hp0', ⟨_, hp0', rfl⟩, ⟨_, hp0', rfl⟩⟩
  · have mi1 : i1 ∈ g.ins v := by rw [hi]; simp
    have mi2 : i2 ∈ g.ins v := by rw [hi]; simp
    have mo1 : o1 ∈ g.outs v := by rcases ho with ho | ho <;> rw [ho] <;> simp
    have mo2 : o2 ∈ g.outs v := by rcases ho with ho | ho <;> rw [ho] <;> simp
    have nd := List.Nodup.of_map _ h.eids
    have hi12 : i1.eid ≠ i2.eid := by
      have hnd : (g.ins v).Nodup := nd.filter _
      rw [hi] at hnd
      simp only [List.nodup_cons, List.mem_singleton] at hnd
      exact fun hh => hnd.1 (h.inj (mem_ins.1 mi1).1 (mem_ins.1 mi2).1 hh)
    have ho12 : o1.eid ≠ o2.eid := by
      have hnd : (g.outs v).Nodup := nd.filter _
      intro hh
      have := h.inj (mem_outs.1 mo1).1 (mem_outs.1 mo2).1 hh
      rcases ho with ho | ho <;> rw [ho, this] at hnd <;> simp at hnd
    have hdiff : i1.src ≠ i2.src := by
      intro hh
      have hp := pair_in_shape hi ho (hok.mem p0 hp0).1 (hok.mem p0 hp0).2
      apply hok.diff p0 hp0
      rcases hp.1 with q1 | q1 <;> rcases hp.2 with q2 | q2 <;> rw [q1, q2]
      · exact ha
      · rw [hh]; exact hb
      · rw [← hh]; exact ha
      · exact hb
    have c12 := hcross i1 mi1 o2 mo2
    have c21 := hcross i2 mi2 o1 mo1
    have t11 := hmeet i1 mi1 o1 mo1
    have t12 := hmeet i1 mi1 o2 mo2
    have t21 := hmeet i2 mi2 o1 mo1
    have t22 := hmeet i2 mi2 o2 mo2
    have d12 : i1.src ≠ o2.tgt := by rw [← hb]; exact hdiff
    have d21 : i2.src ≠ o1.tgt := by rw [← ha]; exact fun hh => hdiff hh.symm
    have hmem : (i1, o2) ∈ merges true g v ∧ (i2, o1) ∈ merges true g v := by
      unfold merges
      rcases ho with ho | ho
      · rw [hi, ho]
        simp [addMerge, hn1, hn2, c12, c21, t11, t12, t21, t22, ha, hb, hi12, ho12, ho12.symm, d12, d21]
        grind
      · rw [hi, ho]
        simp [addMerge, hn1, hn2, c12, c21, t11, t12, t21, t22, ha, hb, hi12, ho12, ho12.symm, d12, d21]
        grind
    refine ⟨?_, ?_, ?_⟩
    · intro i hi' o ho' hd
      have hp := pair_in_shape (p := (i, o)) hi ho hi' ho'
      simp only at hp
      rcases hp.1 with rfl | rfl <;> rcases hp.2 with rfl | rfl
      · exact absurd ha hd
      · exact hmem.1
      · exact hmem.2
      · exact absurd hb hd
    · intro i hi'
      rw [hi] at hi'
      simp only [List.mem_cons, List.not_mem_nil, or_false] at hi'
      rcases hi' with rfl | rfl
      · exact ⟨_, hmem.1, rfl⟩
      · exact ⟨_, hmem.2, rfl⟩
    · intro o ho'
      have : o = o1 ∨ o = o2 := by
        rcases ho with ho | ho <;> rw [ho] at ho' <;> simp only [List.mem_cons, List.not_mem_nil, or_false] at ho'
        · exact ho'
        · exact ho'.symm
      rcases this with rfl | rfl
      · exact ⟨_, hmem.2, rfl⟩
      · exact ⟨_, hmem.1, rfl⟩

end MM.Net
