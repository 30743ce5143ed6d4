import Verif.Model.NextSearch
import Mathlib.Data.List.Basic
import Mathlib.Data.List.Pairwise
import Mathlib.Data.List.Perm.Basic
import Mathlib.Data.Nat.Basic
import Mathlib.Tactic.SplitIfs

/-!
# C75: candidates of a point
-/

set_option autoImplicit false
set_option linter.unusedSectionVars false

namespace MM.NextSearch

theorem mem_put (x y : Nat) (l : List Nat) : y ∈ put x l ↔ y = x ∨ y ∈ l := by
  induction l with
  | nil => simp [put]
  | cons z l ih =>
    unfold put
    split_ifs with h1 h2
    · simp
    · subst h2; simp
    · simp [ih]; tauto

theorem sorted_put (x : Nat) (l : List Nat) (h : l.Pairwise (· < ·)) : (put x l).Pairwise (· < ·) := by
  induction l with
  | nil => simp [put]
  | cons z l ih =>
    rw [List.pairwise_cons] at h
    unfold put
    split_ifs with h1 h2
    · rw [List.pairwise_cons]
      refine ⟨?_, by rw [List.pairwise_cons]; exact h⟩
      intro y hy
      rcases List.mem_cons.1 hy with rfl | hy
      · exact h1
      · exact Nat.lt_trans h1 (h.1 y hy)
    · rw [List.pairwise_cons]; exact h
    · rw [List.pairwise_cons]
      refine ⟨?_, ih h.2⟩
      intro y hy
      rcases (mem_put x y l).1 hy with rfl | hy
      · omega
      · exact h.1 y hy

theorem mem_putAll (xs : List Nat) : ∀ (s : List Nat) (y : Nat), y ∈ putAll xs s ↔ y ∈ xs ∨ y ∈ s := by
  induction xs with
  | nil => intro s y; simp [putAll]
  | cons x xs ih =>
    intro s y
    have : putAll (x :: xs) s = putAll xs (put x s) := rfl
    rw [this, ih, mem_put, List.mem_cons]
    tauto

theorem sorted_putAll (xs : List Nat) : ∀ s : List Nat, s.Pairwise (· < ·) → (putAll xs s).Pairwise (· < ·) := by
  induction xs with
  | nil => intro s h; exact h
  | cons x xs ih => intro s h; exact ih _ (sorted_put x s h)

theorem mem_out (n : Net) (v e : Nat) : e ∈ out n v ↔ e < n.length ∧ src n e = v := by simp [out]

variable {R : Type} [LinearOrder R]

theorem mem_adjacent (n : Net) (dist : Nat → R) (es : List Nat) (a : Nat) :
    a ∈ adjacent n dist es ↔ a < n.length ∧ ∃ e ∈ es, src n a = src n e ∨ src n a = tgt n e := by
  simp only [adjacent, List.mem_flatMap, List.mem_cons, List.not_mem_nil, or_false, List.mem_filter, mem_out, adjacentAdded,
    le_refl, decide_true, and_true]
  constructor
  · rintro ⟨e, he, v, rfl | rfl, h1, h2⟩
    · exact ⟨h1, e, he, .inl h2⟩
    · exact ⟨h1, e, he, .inr h2⟩
  · rintro ⟨h1, e, he, h2 | h2⟩
    · exact ⟨e, he, _, .inl rfl, h1, h2⟩
    · exact ⟨e, he, _, .inr rfl, h1, h2⟩

theorem mem_reverses (n : Net) (es : List Nat) (a : Nat) :
    a ∈ reverses n es ↔ a < n.length ∧ ∃ e ∈ es, src n a = tgt n e ∧ tgt n a = src n e := by
  simp only [reverses, List.mem_flatMap, List.mem_filter, mem_out, decide_eq_true_eq]
  constructor
  · rintro ⟨e, he, ⟨h1, h2⟩, h3⟩
    exact ⟨h1, e, he, h2, h3⟩
  · rintro ⟨h1, e, he, h2, h3⟩
    exact ⟨e, he, ⟨h1, h2⟩, h3⟩

/-- Vertex `v` is an end of one of the edges. -/
def Touches (n : Net) (es : List Nat) (v : Nat) : Prop := ∃ e ∈ es, v = src n e ∨ v = tgt n e

/-- **C75, mode NEXT (in part).**  The edges found stay, each occurs once; the result are exactly the edges that leave an end of an edge
found and those that lead to one and have a reverse edge.  With each edge its reverse edges belong to the result.  Missing:
adjacent edges farther away are not left out, see `farther_fails`. -/
theorem additions_partial (n : Net) (dist : Nat → R) (es : List Nat) (hs : es.Pairwise (· < ·)) (hes : ∀ e ∈ es, e < n.length) :
    (additionsNext n dist es).Pairwise (· < ·) ∧ (∀ e ∈ es, e ∈ additionsNext n dist es) ∧
    (∀ a, a ∈ additionsNext n dist es ↔ a < n.length ∧ (Touches n es (src n a) ∨
      (Touches n es (tgt n a) ∧ ∃ e, e < n.length ∧ src n e = tgt n a ∧ tgt n e = src n a))) ∧
    ∀ a ∈ additionsNext n dist es, ∀ b, b < n.length → src n b = tgt n a → tgt n b = src n a → b ∈ additionsNext n dist es := by
  have h1 : ∀ a, a ∈ putAll (adjacent n dist es) es ↔ a < n.length ∧ Touches n es (src n a) := by
    intro a
    rw [mem_putAll, mem_adjacent]
    constructor
    · rintro (⟨h, e, he, h'⟩ | h)
      · exact ⟨h, e, he, h'⟩
      · exact ⟨hes a h, a, h, .inl rfl⟩
    · rintro ⟨h, e, he, h'⟩
      exact .inl ⟨h, e, he, h'⟩
  have h2 : ∀ a, a ∈ additionsNext n dist es ↔ a < n.length ∧ (Touches n es (src n a) ∨
      (Touches n es (tgt n a) ∧ ∃ e, e < n.length ∧ src n e = tgt n a ∧ tgt n e = src n a)) := by
    intro a
    unfold additionsNext
    rw [mem_putAll, mem_reverses, h1]
    constructor
    · rintro (⟨h, e, he, h3, h4⟩ | ⟨h, h'⟩)
      · obtain ⟨g1, g2⟩ := (h1 e).1 he
        exact ⟨h, .inr ⟨h4 ▸ g2, e, g1, h4.symm, h3.symm⟩⟩
      · exact ⟨h, .inl h'⟩
    · rintro ⟨h, h' | ⟨h', e, he, h3, h4⟩⟩
      · exact .inr ⟨h, h'⟩
      · exact .inl ⟨h, e, (h1 e).2 ⟨he, h3 ▸ h'⟩, h4.symm, h3.symm⟩
  refine ⟨sorted_putAll _ _ (sorted_putAll _ _ hs), ?_, h2, ?_⟩
  · intro e he
    rw [h2]
    exact ⟨hes e he, .inl ⟨e, he, .inl rfl⟩⟩
  · intro a ha b hb h3 h4
    obtain ⟨g1, g2⟩ := (h2 a).1 ha
    rw [h2]
    refine ⟨hb, ?_⟩
    rcases g2 with g2 | ⟨g2, -⟩
    · exact .inr ⟨h4 ▸ g2, a, g1, h4.symm, h3.symm⟩
    · exact .inl (h3 ▸ g2)

/-- A two-way road 0 - 1 - 2 - 3 (edges 0 to 5); edge 0 was found. -/
def road : Net := [(0, 1), (1, 0), (1, 2), (2, 1), (2, 3), (3, 2)]

example : additionsNext road (fun e => e) [0] = [0, 1, 2, 3] ∧ ([0] : List Nat).Pairwise (· < ·) := by decide

/-- **C75 fails: edges farther away than the nearest one are added in mode NEXT.**  Edges 2 and 3 are 1000 away, edges 0 and 1 only 5. -/
theorem farther_fails : 2 ∈ additionsNext road (fun e => if e < 2 then 5 else 1000) [0] ∧
    3 ∈ additionsNext road (fun e => if e < 2 then 5 else 1000) [0] ∧ ¬ ∃ e ∈ additionsNext road (fun e => if e < 2 then 5 else 1000) [0], 4 ≤ e := by
  decide

/-! ### Order and completeness of the candidates -/

theorem insertBy_perm {α : Type} (d : α → R) (x : α) (l : List α) : (insertBy d x l).Perm (x :: l) := by
  induction l with
  | nil => exact List.Perm.refl _
  | cons y l ih =>
    unfold insertBy
    split_ifs
    · exact List.Perm.refl _
    · exact (List.Perm.cons y ih).trans (List.Perm.swap x y l)

theorem insertBy_sorted {α : Type} (d : α → R) (x : α) (l : List α) (h : l.Pairwise (fun a b => d a ≤ d b)) :
    (insertBy d x l).Pairwise (fun a b => d a ≤ d b) := by
  induction l with
  | nil => simp [insertBy]
  | cons y l ih =>
    rw [List.pairwise_cons] at h
    unfold insertBy
    split_ifs with hlt
    · rw [List.pairwise_cons]
      refine ⟨?_, List.pairwise_cons.2 h⟩
      intro z hz
      rcases List.mem_cons.1 hz with rfl | hz
      · exact le_of_lt hlt
      · exact le_trans (le_of_lt hlt) (h.1 z hz)
    · rw [List.pairwise_cons]
      refine ⟨?_, ih h.2⟩
      intro z hz
      rcases List.mem_cons.1 ((insertBy_perm d x l).mem_iff.1 hz) with rfl | hz
      · exact not_lt.1 hlt
      · exact h.1 z hz

/-- **C75, candidates.**  Each edge found that has a length gives one candidate, nothing else does, and the candidates are in order of
distance. -/
theorem process_complete {C : Type} (make : Nat → Option C) (d : C → R) (es : List Nat) :
    (process make d es []).Perm (es.filterMap make) ∧ (process make d es []).Pairwise (fun a b => d a ≤ d b) := by
  have key : ∀ (cs s : List C), s.Pairwise (fun a b => d a ≤ d b) →
      (cs.foldl (fun s c => insertBy d c s) s).Perm (cs ++ s) ∧ (cs.foldl (fun s c => insertBy d c s) s).Pairwise (fun a b => d a ≤ d b) := by
    intro cs
    induction cs with
    | nil => intro s h; exact ⟨List.Perm.refl _, h⟩
    | cons c cs ih =>
      intro s h
      rw [List.foldl_cons]
      obtain ⟨h1, h2⟩ := ih _ (insertBy_sorted d c s h)
      refine ⟨h1.trans ?_, h2⟩
      exact ((insertBy_perm d c s).append_left cs).trans (List.perm_middle)
  have := key (es.filterMap make) [] List.Pairwise.nil
  simpa [process] using this

example : process (fun e => if e = 2 then none else some (e, 10 - e)) Prod.snd [1, 2, 3, 4] [] = [(4, 6), (3, 7), (1, 9)] := by decide

/-- **C75, nodes.**  The nodes of the candidates are exactly the ends of their edges, each once, in order of distance. -/
theorem nodes_complete (n : Net) (d : Nat → R) (es : List Nat) :
    (nodesOf n d es).Nodup ∧ (nodesOf n d es).Pairwise (fun a b => d a ≤ d b) ∧ ∀ v, v ∈ nodesOf n d es ↔ Touches n es v := by
  let Good : Nodes → (Nat → Prop) → Prop := fun s T =>
    s.nodes.Nodup ∧ s.nodes.Pairwise (fun a b => d a ≤ d b) ∧ (∀ v, v ∈ s.nodes ↔ T v) ∧ ∀ v, v ∈ s.check ↔ T v
  have one : ∀ (s : Nodes) (T : Nat → Prop) (w : Nat), Good s T → Good (addNode d s w) (fun v => v = w ∨ T v) := by
    rintro s T w ⟨h1, h2, h3, h4⟩
    unfold addNode
    split_ifs with hw
    · have hT : T w := (h4 w).1 hw
      have e : ∀ v, (v = w ∨ T v) ↔ T v := fun v => ⟨fun h => h.elim (fun h => h ▸ hT) id, .inr⟩
      refine ⟨h1, h2, fun v => ?_, fun v => ?_⟩
      · rw [h3]; exact (e v).symm
      · rw [h4]; exact (e v).symm
    · have hn : w ∉ s.nodes := fun h => hw ((h4 w).2 ((h3 w).1 h))
      have hp := insertBy_perm d w s.nodes
      refine ⟨?_, insertBy_sorted d w _ h2, fun v => ?_, fun v => ?_⟩
      · rw [hp.nodup_iff, List.nodup_cons]
        exact ⟨hn, h1⟩
      · show v ∈ insertBy d w s.nodes ↔ _
        rw [hp.mem_iff, List.mem_cons, h3]
      · show v ∈ put w s.check ↔ _
        rw [mem_put, h4]
  have all : ∀ (es : List Nat) (s : Nodes) (T : Nat → Prop), Good s T →
      Good (es.foldl (fun s e => addNode d (addNode d s (src n e)) (tgt n e)) s) (fun v => Touches n es v ∨ T v) := by
    intro es
    induction es with
    | nil =>
      intro s T h
      have e : (fun v => Touches n [] v ∨ T v) = T := by
        funext v
        simp [Touches]
      rw [e]
      exact h
    | cons x es ih =>
      intro s T h
      rw [List.foldl_cons]
      have := ih _ _ (one _ _ (tgt n x) (one _ _ (src n x) h))
      have e : (fun v => Touches n es v ∨ v = tgt n x ∨ v = src n x ∨ T v) = (fun v => Touches n (x :: es) v ∨ T v) := by
        funext v
        apply propext
        simp only [Touches, List.mem_cons, exists_eq_or_imp]
        generalize (∃ e ∈ es, v = src n e ∨ v = tgt n e) = A
        generalize (v = src n x) = B
        generalize (v = tgt n x) = D
        generalize T v = E
        tauto
      rw [e] at this
      exact this
  obtain ⟨h1, h2, h3, -⟩ := all es ⟨[], []⟩ (fun _ => False) ⟨by simp, by simp, by simp, by simp⟩
  refine ⟨h1, h2, fun v => ?_⟩
  have := h3 v
  simpa [nodesOf] using this

example : nodesOf road (fun v => 10 - v) [0, 2, 3] = [2, 1, 0] := by decide

/-- **C75, equal points.**  The mark is set exactly if there is a next point and it is equal. -/
theorem next_equal {P : Type} [DecidableEq P] (track : List P) (i : Nat) :
    nextEqual track i = true ↔ ∃ p, track[i]? = some p ∧ track[i + 1]? = some p := by
  unfold nextEqual
  rw [Bool.and_eq_true, decide_eq_true_iff, decide_eq_true_iff]
  constructor
  · rintro ⟨h1, h2⟩
    exact ⟨track[i + 1], by rw [h2, List.getElem?_eq_getElem h1], List.getElem?_eq_getElem h1⟩
  · rintro ⟨p, h1, h2⟩
    exact ⟨(List.getElem?_eq_some_iff.1 h2).1, by rw [h1, h2]⟩

example : (List.range 4).map (nextEqual [7, 7, 8, 8]) = [true, false, true, false] := by decide

end MM.NextSearch
