import Verif.Model.ByValue
import Verif.Props.GraphHelper

/-! # Property theorems C116 (nodes and edges handed over by value) -/

set_option autoImplicit false
set_option linter.unusedSectionVars false

namespace MM.GHelper

open MM.AdjList

variable {P L : Type}

/-! ## What the calls ask for -/

/-- The nodes handed over, in order. -/
def givenNodes : List (Call P L) → List (Rec P)
  | [] => []
  | .ref (.node r _) :: cs => r :: givenNodes cs
  | .ref (.arc ..) :: cs => givenNodes cs
  | .node r :: cs => r :: givenNodes cs
  | .edge .. :: cs => givenNodes cs

/-- The edges handed over, in order, with the numbers of the nodes they connect. -/
def givenArcs : List (Call P L) → List (Nat × Nat × Rec L)
  | [] => []
  | .ref (.node ..) :: cs => givenArcs cs
  | .ref (.arc i j r _) :: cs => (i, j, r) :: givenArcs cs
  | .node .. :: cs => givenArcs cs
  | .edge i j r :: cs => (i, j, r) :: givenArcs cs

/-- The call by reference with the same node or edge. -/
def Call.asRef : Call P L → Op P L
  | .ref op => op
  | .node r => .node r []
  | .edge i j r => .arc i j r []

/-- What a call may come down to: itself, or, for an edge by value, an edge without its line. -/
def Became (drained : L) (c : Call P L) (op : Op P L) : Prop :=
  op = c.asRef ∨ ∃ i j r, c = .edge i j r ∧ op = .arc i j ⟨r.id, drained⟩ []

/-! ## Lemmas -/

theorem set_nothing (m : List (Nat × List Nat)) (i : Nat) : Tags.setMapTags m i [] = m := by
  simp [Tags.setMapTags]

/-- An attempt to add an edge without tags. -/
theorem arc_attempt (i j : Nat) (r : Rec L) (s : Store P L) :
    Op.attempt (.arc i j r []) s =
      (descriptor s i).bind fun v => (descriptor s j).bind fun w => addEdgeAt s.now v w r s.next := by
  simp only [Op.attempt, addArc, set_nothing]
  rfl

/-- An attempt with the parameter moved is one by reference. -/
theorem moved_attempt (drained : L) (i j : Nat) (r : Rec L) (s : Store P L) :
    addMoved drained i j (s, r) = (Op.attempt (.arc i j r []) s).map (fun x => ((x.1, movedFrom drained r), x.2)) := by
  rw [arc_attempt]
  unfold addMoved
  cases descriptor s i <;> simp
  cases descriptor s j <;> simp

/-- Whether an attempt fails and what it leaves behind does not depend on the edge. -/
theorem failed_same (i j : Nat) (r r' : Rec L) (s t : Store P L)
    (h : Op.attempt (.arc i j r []) s = .ok (t, none)) : Op.attempt (.arc i j r' []) s = .ok (t, none) := by
  rw [arc_attempt] at h ⊢
  cases hi : descriptor s i with
  | throws => rw [hi] at h; simp at h
  | ub => rw [hi] at h; simp at h
  | ok v =>
    cases hj : descriptor s j with
    | throws => rw [hi, hj] at h; simp at h
    | ub => rw [hi, hj] at h; simp at h
    | ok w =>
      rw [hi, hj] at h
      simp only [Outcome.bind_ok, addEdgeAt, addEdge] at h ⊢
      split at h
      · next hv =>
        rw [if_pos hv]
        simp only [Outcome.map_ok, Outcome.ok.injEq, Prod.mk.injEq] at h ⊢
        rcases addEdgeAux_cases (g := s.next.graph) .bidirectional s.now.edge v w r with hc | hc
        · have hf : (addEdgeAux .bidirectional s.now.edge s.next.graph v w r').threw = true := by
            revert hc
            cases h1 : s.now.edge.edges <;> cases h2 : s.now.edge.srcOut <;> cases h3 : s.now.edge.tgtIn <;>
              simp [addEdgeAux, tryAdd, addTgtIn, h1, h2, h3]
          rcases addEdgeAux_cases (g := s.next.graph) .bidirectional s.now.edge v w r' with hd | hd
          · rw [hc] at h
            rw [hd]
            exact h
          · rw [hd] at hf
            simp at hf
        · rw [hc] at h
          simp at h
      · simp at h

/-- A call by value comes down to one by reference; the line is kept if the first attempt succeeds or nothing is retried. -/
theorem moved_call (drained : L) (mapped : Bool) (i j : Nat) (r : Rec L) (s : Store P L) :
    (callMoved drained mapped i j r s = call mapped (.arc i j r []) s ∧
      (mapped = false ∨ ∀ t, Op.attempt (.arc i j r []) s ≠ .ok (t, none))) ∨
    (callMoved drained mapped i j r s = call mapped (.arc i j ⟨r.id, drained⟩ []) s ∧ mapped = true ∧
      ∃ t, Op.attempt (.arc i j r []) s = .ok (t, none)) := by
  cases mapped with
  | false =>
    left
    refine ⟨?_, .inl rfl⟩
    simp only [callMoved, call, Bool.false_eq_true, if_false, moved_attempt]
    cases Op.attempt (.arc i j r []) s <;> simp
  | true =>
    cases ha : Op.attempt (.arc i j r []) s with
    | throws => left; refine ⟨?_, .inr (by simp)⟩; simp [callMoved, call, retry, moved_attempt, ha]
    | ub => left; refine ⟨?_, .inr (by simp)⟩; simp [callMoved, call, retry, moved_attempt, ha]
    | ok x =>
      obtain ⟨t, o⟩ := x
      cases o with
      | some a => left; refine ⟨?_, .inr (by simp)⟩; simp [callMoved, call, retry, moved_attempt, ha]
      | none =>
        right
        refine ⟨?_, rfl, t, rfl⟩
        have hb := failed_same i j r ⟨r.id, drained⟩ s t ha
        simp only [callMoved, call, if_true, retry, moved_attempt, ha, hb, Outcome.map_ok, growBeside, movedFrom]
        cases Op.attempt (.arc i j ⟨r.id, drained⟩ []) (grow t) with
        | throws => rfl
        | ub => rfl
        | ok y =>
          obtain ⟨u, o⟩ := y
          cases o <;> rfl

theorem call_became (drained : L) (mapped : Bool) (c : Call P L) (s : Store P L) :
    ∃ op, Became drained c op ∧ c.call drained mapped s = call mapped op s ∧ (mapped = false → op = c.asRef) := by
  cases c with
  | ref op => exact ⟨op, .inl rfl, rfl, fun _ => rfl⟩
  | node r => exact ⟨_, .inl rfl, rfl, fun _ => rfl⟩
  | edge i j r =>
    rcases moved_call drained mapped i j r s with ⟨h, -⟩ | ⟨h, hm, -⟩
    · exact ⟨_, .inl rfl, h, fun _ => rfl⟩
    · exact ⟨_, .inr ⟨i, j, r, rfl, rfl⟩, h, fun hf => by rw [hm] at hf; cases hf⟩

/-- All calls come down to calls by reference. -/
theorem runs_became (drained : L) (mapped : Bool) (cs : List (Call P L)) : ∀ (s : Store P L) (rs : List Nat),
    ∃ ops, List.Forall₂ (Became drained) cs ops ∧ runCalls drained mapped cs s rs = run mapped ops s rs ∧
      (mapped = false → ops = cs.map Call.asRef) := by
  induction cs with
  | nil => intro s rs; exact ⟨[], .nil, rfl, fun _ => rfl⟩
  | cons c cs ih =>
    intro s rs
    obtain ⟨op, hb, hc, hm⟩ := call_became drained mapped c s
    cases hr : call mapped op s with
    | throws =>
      obtain ⟨ops, h1, -, h3⟩ := ih s rs
      exact ⟨op :: ops, .cons hb h1, by simp [runCalls, run, hc, hr], fun h => by simp [hm h, h3 h]⟩
    | ub =>
      obtain ⟨ops, h1, -, h3⟩ := ih s rs
      exact ⟨op :: ops, .cons hb h1, by simp [runCalls, run, hc, hr], fun h => by simp [hm h, h3 h]⟩
    | ok x =>
      obtain ⟨t, o⟩ := x
      cases o with
      | none =>
        obtain ⟨ops, h1, -, h3⟩ := ih s rs
        exact ⟨op :: ops, .cons hb h1, by simp [runCalls, run, hc, hr], fun h => by simp [hm h, h3 h]⟩
      | some a =>
        obtain ⟨ops, h1, h2, h3⟩ := ih t (rs ++ [a])
        exact ⟨op :: ops, .cons hb h1, by simp [runCalls, run, hc, hr, h2], fun h => by simp [hm h, h3 h]⟩

theorem nodes_asRef (cs : List (Call P L)) : nodesOf (cs.map Call.asRef) = givenNodes cs := by
  induction cs with
  | nil => rfl
  | cons c cs ih =>
    cases c with
    | ref op => cases op <;> simp [Call.asRef, nodesOf, givenNodes, ih]
    | node r => simp [Call.asRef, nodesOf, givenNodes, ih]
    | edge i j r => simp [Call.asRef, nodesOf, givenNodes, ih]

theorem arcs_asRef (cs : List (Call P L)) : arcsOf (cs.map Call.asRef) = givenArcs cs := by
  induction cs with
  | nil => rfl
  | cons c cs ih =>
    cases c with
    | ref op => cases op <;> simp [Call.asRef, arcsOf, givenArcs, ih]
    | node r => simp [Call.asRef, arcsOf, givenArcs, ih]
    | edge i j r => simp [Call.asRef, arcsOf, givenArcs, ih]

/-- An edge in the storage is the one handed over, perhaps without its line. -/
def Nearly (drained : L) (a b : Nat × Nat × Rec L) : Prop := b = a ∨ b = (a.1, a.2.1, ⟨a.2.2.id, drained⟩)

theorem became_given {drained : L} {cs : List (Call P L)} {ops : List (Op P L)} (h : List.Forall₂ (Became drained) cs ops) :
    nodesOf ops = givenNodes cs ∧ List.Forall₂ (Nearly drained) (givenArcs cs) (arcsOf ops) := by
  induction h with
  | nil => exact ⟨rfl, .nil⟩
  | @cons c op cs ops hb _ ih =>
    rcases hb with rfl | ⟨i, j, r, rfl, rfl⟩
    · cases c with
      | ref op => 
        cases op with
        | node r tags => exact ⟨by simp [Call.asRef, nodesOf, givenNodes, ih.1], ih.2⟩
        | arc i j r tags => exact ⟨ih.1, .cons (.inl rfl) ih.2⟩
      | node r => exact ⟨by simp [Call.asRef, nodesOf, givenNodes, ih.1], ih.2⟩
      | edge i j r => exact ⟨ih.1, .cons (.inl rfl) ih.2⟩
    · exact ⟨ih.1, .cons (.inr rfl) ih.2⟩

/-! ## C116 -/

/-- Edges refer to nodes handed over before. -/
def LegalCalls (cs : List (Call P L)) : Prop :=
  ∀ k i j r, cs[k]? = some (.edge i j r) ∨ (∃ tags, cs[k]? = some (.ref (.arc i j r tags))) →
    i < (givenNodes (cs.take k)).length ∧ j < (givenNodes (cs.take k)).length

theorem legal_became {drained : L} {cs : List (Call P L)} {ops : List (Op P L)}
    (h : List.Forall₂ (Became drained) cs ops) (hl : LegalCalls cs) : Legal ops := by
  intro k i j r tags hk
  have ht : nodesOf (ops.take k) = givenNodes (cs.take k) := (became_given (List.forall₂_take k h)).1
  rw [ht]
  have hlen := h.length_eq
  have hko := (List.getElem?_eq_some_iff.1 hk).1
  have hkc : k < cs.length := by omega
  have hb : Became drained cs[k] ops[k] := List.forall₂_iff_get.1 h |>.2 k hkc hko
  have hok : ops[k] = .arc i j r tags := (List.getElem?_eq_some_iff.1 hk).2
  have hck : cs[k]? = some cs[k] := List.getElem?_eq_getElem hkc
  rw [hok] at hb
  rcases hb with hb | ⟨i', j', r', hc, hb⟩
  · cases hc : cs[k] with
    | ref op =>
      rw [hc] at hb
      simp only [Call.asRef] at hb
      subst hb
      exact hl k i j r (.inr ⟨tags, by rw [hck, hc]⟩)
    | node r' => rw [hc] at hb; simp [Call.asRef] at hb
    | edge i' j' r' =>
      rw [hc] at hb
      simp only [Call.asRef, Op.arc.injEq] at hb
      obtain ⟨rfl, rfl, rfl, -⟩ := hb
      exact hl k i j r (.inl (by rw [hck, hc]))
  · simp only [Op.arc.injEq] at hb
    obtain ⟨rfl, rfl, -, -⟩ := hb
    exact hl k i j r' (.inl (by rw [hck, hc]))

/-- **C116, as far as it holds.** Whatever allocations fail: calls by reference and by value never run into undefined
behaviour and throw only if an edge refers to a node that was not handed over before.  The storage holds exactly the nodes
of the calls that returned and, once each and in order, their edges with their ids, connecting the nodes they were handed over
for, with coherent incidence lists.  Missing: an edge may be without its line (`line_lost_fails`). -/
theorem by_value_partial (drained : L) (mapped : Bool) (cs : List (Call P L)) (size : Nat) (pending : List Trouble) :
    runCalls drained mapped cs (start size pending) [] ≠ .ub ∧
    (runCalls drained mapped cs (start size pending) [] = .throws → ¬ LegalCalls cs) ∧
    ∀ r, runCalls drained mapped cs (start size pending) [] = .ok r →
      nodes r.store = givenNodes (cs.take r.results.length) ∧
      List.Forall₂ (Nearly drained) (givenArcs (cs.take r.results.length)) (arcs r.store) ∧
      Coherent .bidirectional r.store.graph ∧
      (r.complete = true ↔ r.results.length = cs.length) := by
  obtain ⟨ops, hb, hr, -⟩ := runs_became drained mapped cs (start size pending) []
  rw [hr]
  obtain ⟨h1, h2, h3⟩ := built mapped ops size pending
  refine ⟨h1, fun h hl => h2 h (legal_became hb hl), fun r h => ?_⟩
  obtain ⟨a, b, c, -, -, d⟩ := h3 r h
  obtain ⟨g1, g2⟩ := became_given (List.forall₂_take r.results.length hb)
  rw [a, b]
  exact ⟨g1, g2, c, by rw [d, hb.length_eq]⟩

/-- **C116.** In memory, nothing is retried and every edge keeps its line. -/
theorem in_memory (drained : L) (cs : List (Call P L)) (size : Nat) (pending : List Trouble) (r : Run P L)
    (h : runCalls drained false cs (start size pending) [] = .ok r) :
    nodes r.store = givenNodes (cs.take r.results.length) ∧ arcs r.store = givenArcs (cs.take r.results.length) := by
  obtain ⟨ops, -, hr, hm⟩ := runs_became drained false cs (start size pending) []
  rw [hr] at h
  obtain ⟨-, -, h3⟩ := built false ops size pending
  obtain ⟨a, b, -⟩ := h3 r h
  rw [a, b, hm rfl, ← List.map_take, nodes_asRef, arcs_asRef]
  exact ⟨rfl, rfl⟩

/-- Without failing allocations all calls are those by reference. -/
theorem untroubled_calls (drained : L) (mapped : Bool) (cs : List (Call P L)) : ∀ (done : List (Op P L)) (s : Store P L)
    (rs : List Nat), Core done s → Tagged done s → s.pending = [] →
    runCalls drained mapped cs s rs = run mapped (cs.map Call.asRef) s rs := by
  induction cs with
  | nil => intro done s rs _ _ _; rfl
  | cons c cs ih =>
    intro done s rs hc ht hp
    have hcall : c.call drained mapped s = call mapped c.asRef s := by
      cases c with
      | ref op => rfl
      | node r => rfl
      | edge i j r =>
        rcases moved_call drained mapped i j r s with ⟨h, -⟩ | ⟨-, -, t, h⟩
        · exact h
        · exfalso
          rcases attempt_spec hc (.arc i j r []) (.inl ht) with ⟨u, h1, -⟩ | ⟨u, h1, -, -, -, h5⟩ | ⟨h1, -⟩
          · rw [h1] at h; simp at h
          · exact h5 (by simp [Store.now, hp])
          · rw [h1] at h; simp at h
    simp only [runCalls, List.map_cons, run, hcall]
    rcases call_spec hc ht mapped c.asRef with ⟨t, h1, h2, h3, h4, -⟩ | ⟨t, h1, -⟩ | ⟨h1, -⟩
    · simp only [h1]
      refine ih _ t _ h2 h3 ?_
      rcases h4 with h4 | h4 <;> simp [h4, hp]
    · simp [h1]
    · simp [h1]

theorem suffices_aux (mapped : Bool) (ops : List (Op P L)) : ∀ (done : List (Op P L)) (s : Store P L) (rs : List Nat),
    Core done s → Tagged done s → Legal (done ++ ops) → s.pending = [] →
    ∃ r, run mapped ops s rs = .ok r ∧ r.complete = true := by
  induction ops with
  | nil => intro done s rs _ _ _ _; exact ⟨_, rfl, rfl⟩
  | cons op ops ih =>
    intro done s rs hc ht hl hp
    rcases call_spec hc ht mapped op with ⟨t, h1, h2, h3, h4, -⟩ | ⟨t, -, -, h3, -⟩ | ⟨-, i, j, r, tags, ho, hn⟩
    · simp only [run, h1]
      refine ih (done ++ [op]) t _ h2 h3 (by simpa using hl) ?_
      rcases h4 with h4 | h4 <;> simp [h4, hp]
    · exact absurd (by simp [Store.now, hp]) h3
    · refine absurd ?_ hn
      have := hl done.length i j r tags (by simp [ho])
      simpa using this

/-- **C116.** As long as the storage suffices, every edge keeps its line and no call fails. -/
theorem storage_suffices (drained : L) (mapped : Bool) (cs : List (Call P L)) (size : Nat) (hl : LegalCalls cs) :
    ∃ r, runCalls drained mapped cs (start size []) [] = .ok r ∧ r.complete = true ∧
      nodes r.store = givenNodes cs ∧ arcs r.store = givenArcs cs := by
  have hu := untroubled_calls drained mapped cs [] (start size []) [] (core_start size []) (tagged_start size []) rfl
  rw [hu]
  have hb : List.Forall₂ (Became drained) cs (cs.map Call.asRef) := by
    rw [List.forall₂_map_right_iff]
    exact List.forall₂_same.2 (fun _ _ => .inl rfl)
  have hleg := legal_became hb hl
  obtain ⟨r, hr, hc⟩ := suffices_aux mapped (cs.map Call.asRef) [] (start size []) [] (core_start size [])
    (tagged_start size []) (by simpa using hleg) rfl
  obtain ⟨-, -, h3⟩ := built mapped (cs.map Call.asRef) size []
  obtain ⟨a, b, -, -, -, d⟩ := h3 r hr
  have hn := d.1 hc
  refine ⟨r, hr, hc, ?_, ?_⟩
  · rw [a, hn, List.take_length, nodes_asRef]
  · rw [b, hn, List.take_length, arcs_asRef]

/-- Two nodes and two edges, one of them by value. -/
def demoCalls : List (Call Char (List Nat)) :=
  [.node ⟨10, 'a'⟩, .ref (.node ⟨11, 'b'⟩ [7]), .edge 0 1 ⟨5, [50, 51]⟩, .ref (.arc 1 0 ⟨6, [51, 50]⟩ [8])]

example : (runCalls [] true demoCalls (start 1 []) []).map (fun r => (nodes r.store, arcs r.store, r.complete)) =
    .ok ([⟨10, 'a'⟩, ⟨11, 'b'⟩], [(0, 1, ⟨5, [50, 51]⟩), (1, 0, ⟨6, [51, 50]⟩)], true) := by rfl

/-- The storage has to grow for the first node, then for the edge by reference: nothing is lost. -/
example : (runCalls [] true demoCalls (start 1 [{ vert := .dirty }, {}, {}, {}, { edge := { srcOut := .clean } }, {}]) []).map
    (fun r => (nodes r.store, arcs r.store, r.store.size, r.complete)) =
    .ok ([⟨10, 'a'⟩, ⟨11, 'b'⟩], [(0, 1, ⟨5, [50, 51]⟩), (1, 0, ⟨6, [51, 50]⟩)], 4, true) := by rfl

theorem demo_legal : LegalCalls demoCalls := by
  intro k i j r h
  unfold demoCalls at *
  match k with
  | 0 | 1 => simp at h
  | 2 | 3 => simp at h; obtain ⟨rfl, rfl, -⟩ := h; decide
  | k + 4 => simp at h

example : ∃ r, runCalls [] true demoCalls (start 1 []) [] = .ok r ∧ r.complete = true ∧
    nodes r.store = givenNodes demoCalls ∧ arcs r.store = givenArcs demoCalls :=
  storage_suffices [] true demoCalls 1 demo_legal

example : ∃ r, runCalls [] false demoCalls (start 1 [{}, {}, { edge := { edges := .clean } }]) [] = .ok r ∧
    r.results = [0, 1] ∧ r.complete = false := ⟨_, rfl, rfl, rfl⟩

/-- **C116.** By value or by reference: in a storage holding what was handed over so far, an edge whose first attempt finds
enough room is stored with its line. -/
theorem kept_at_once (drained : L) (mapped : Bool) {done : List (Op P L)} {s : Store P L} (hc : Core done s)
    (ht : Tagged done s) (hn : s.now = {}) (i j : Nat) (r : Rec L) (hi : i < (nodes s).length) (hj : j < (nodes s).length) :
    ∃ t, (Call.edge i j r : Call P L).call drained mapped s = .ok (t, some (arcs s).length) ∧ nodes t = nodes s ∧
      arcs t = arcs s ++ [(i, j, r)] := by
  have hcall : (Call.edge i j r : Call P L).call drained mapped s = call mapped (.arc i j r []) s := by
    rcases moved_call drained mapped i j r s with ⟨h, -⟩ | ⟨-, -, t, h⟩
    · exact h
    · exfalso
      rcases attempt_spec hc (.arc i j r []) (.inl ht) with ⟨u, h1, -⟩ | ⟨u, h1, -, -, -, h5⟩ | ⟨h1, -⟩
      · rw [h1] at h; simp at h
      · exact h5 hn
      · rw [h1] at h; simp at h
  rw [hcall]
  rcases call_spec hc ht mapped (.arc i j r []) with ⟨t, h1, h2, -⟩ | ⟨t, -, -, h3, -⟩ | ⟨-, i', j', r', tags, ho, hn'⟩
  · refine ⟨t, ?_, ?_, ?_⟩
    · rw [h1, hc.arcs]; rfl
    · rw [h2.nodes, hc.nodes, nodesOf_append]; simp [nodesOf]
    · rw [h2.arcs, hc.arcs, arcsOf_append]; rfl
  · exact absurd hn h3
  · simp only [Op.arc.injEq] at ho
    obtain ⟨rfl, rfl, -, -⟩ := ho
    rw [hc.nodes] at hi hj
    exact absurd ⟨hi, hj⟩ hn'

example : ∃ (done : List (Op Char Nat)) (s : Store Char Nat), Core done s ∧ Tagged done s ∧ s.now = {} ∧
    0 < (nodes s).length ∧ 1 < (nodes s).length := by
  obtain ⟨-, -, h⟩ := run_spec (P := Char) (L := Nat) true [.node ⟨1, 'a'⟩ [], .node ⟨2, 'b'⟩ []] [] (start 1 []) []
    (core_start 1 []) (tagged_start 1 []) rfl (by simp)
  obtain ⟨n, -, hl, hc, -, hd, -⟩ := h _ rfl
  obtain ⟨hn, ht⟩ := hd rfl
  subst hn
  exact ⟨_, _, hc, ht, rfl, by decide, by decide⟩

/-- **C116, false in general.** An edge handed over by value for which the storage has to grow: the first attempt has moved
its line away, so the second one stores an edge with the right id between the right nodes but without a line, and the call
reports success.  By reference the same edge is stored with its line. -/
theorem line_lost_fails : ∃ (pending : List Trouble) (r : Rec (List Nat)), r.val ≠ [] ∧
    (runCalls (P := Char) [] true [.node ⟨1, 'a'⟩, .node ⟨2, 'b'⟩, .edge 0 1 r] (start 1 pending) []).map
      (fun x => (arcs x.store, x.results, x.complete)) = .ok ([(0, 1, ⟨r.id, []⟩)], [0, 1, 0], true) ∧
    (runCalls (P := Char) [] true [.node ⟨1, 'a'⟩, .node ⟨2, 'b'⟩, .ref (.arc 0 1 r [])] (start 1 pending) []).map
      (fun x => (arcs x.store, x.results, x.complete)) = .ok ([(0, 1, r)], [0, 1, 0], true) :=
  ⟨[{}, {}, { edge := { tgtIn := .clean } }, {}], ⟨5, [50, 51]⟩, by decide, rfl, rfl⟩

end MM.GHelper
