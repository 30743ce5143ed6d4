import Verif.Model.EdgesList
import Verif.Props.LineAlgebra
import Mathlib.Data.List.Destutter
import Mathlib.Algebra.Order.Ring.Nat

/-!
# C46: lists of edge identifiers become connected pieces; C61: an unknown identifier affects only its file
-/

set_option autoImplicit false
set_option linter.unusedSectionVars false

namespace MM.EdgesList

open MM.Line

variable {P E : Type} [DecidableEq P]

/-! ### Statement -/

/-- Every edge of the path is one of those asked for at its step. -/
def Fits (steps : List (List E)) (p : List E) : Prop := ∀ (i : Nat) (e : E), p[i]? = some e → ∃ c, steps[i]? = some c ∧ e ∈ c

/-- The next line begins where the last one ended. -/
def Joins (line : E → List P) (a b : E) : Prop := ∃ q, (line a).getLast? = some q ∧ (line b).head? = some q

/-- The steps are covered by pieces, each a connected chain of edges asked for and as long as any such chain from its first step. -/
inductive Covered (line : E → List P) : List (List E) → List (List E) → Prop
  | nil : Covered line [] []
  | cons {steps : List (List E)} {piece : List E} {pieces : List (List E)} (ne : piece ≠ []) (fits : Fits steps piece)
      (chain : piece.IsChain (Joins line)) (longest : ∀ other, Fits steps other → other.IsChain (Joins line) → other.length ≤ piece.length)
      (rest : Covered line (steps.drop piece.length) pieces) : Covered line steps (piece :: pieces)

/-- The edges with an identifier. -/
def edgesOf (edges : List (Int × E)) (id : Int) : List E := (edges.filter (fun x => x.1 = id)).map Prod.snd

/-- The identifiers asked for: repetitions of one identifier count once. -/
def asked (ids : List Int) : List Int := ids.destutter (· ≠ ·)

/-! ### The map of edges -/

theorem addEdge_lookup (m : List (Int × List E)) (x : Int × E) (id : Int) :
    (addEdge m x).lookup id = if id = x.1 then some ((m.lookup id).getD [] ++ [x.2]) else m.lookup id := by
  induction m with
  | nil =>
    by_cases h : id = x.1
    · simp [addEdge, List.lookup, h]
    · have : (id == x.1) = false := by simp [h]
      simp [addEdge, List.lookup, this, h]
  | cons a m ih =>
    obtain ⟨k, es⟩ := a
    rw [addEdge]
    by_cases hk : k = x.1
    · rw [if_pos hk]
      by_cases h : id = x.1
      · simp [List.lookup, h, hk]
      · have : (id == k) = false := by simp [h, hk]
        simp [List.lookup, this, h]
    · rw [if_neg hk]
      by_cases h : id = k
      · subst h
        simp [List.lookup, hk]
      · have : (id == k) = false := by simp [h]
        simp only [List.lookup, this]
        exact ih

theorem edgeMap_lookup (edges : List (Int × E)) (id : Int) :
    (edgeMap edges).lookup id = if edgesOf edges id = [] then none else some (edgesOf edges id) := by
  have key : ∀ (edges : List (Int × E)) (m : List (Int × List E)), (edges.foldl addEdge m).lookup id =
      if edgesOf edges id = [] then m.lookup id else some ((m.lookup id).getD [] ++ edgesOf edges id) := by
    intro edges
    induction edges with
    | nil => intro m; simp [edgesOf]
    | cons x edges ih =>
      intro m
      rw [List.foldl_cons, ih, addEdge_lookup]
      by_cases h : x.1 = id
      · have he : edgesOf (x :: edges) id = x.2 :: edgesOf edges id := by simp [edgesOf, h]
        rw [if_pos h.symm, he]
        simp only [reduceCtorEq, if_false, Option.getD_some]
        split
        · rename_i h'; rw [h']
        · simp
      · have he : edgesOf (x :: edges) id = edgesOf edges id := by simp [edgesOf, h]
        rw [if_neg (fun h' : id = x.1 => h h'.symm), he]
  have := key edges []
  simpa [edgeMap] using this

/-! ### Steps -/

theorem stepsLoop_ok (edges : List (Int × E)) : ∀ (ids : List Int) (prev : Int) (acc : List (List E)), (∀ id ∈ ids, edgesOf edges id ≠ []) →
    ∃ last, stepsLoop (edgeMap edges) (prev, acc, false) ids =
      .ok (last, acc ++ ((List.destutter' (· ≠ ·) prev ids).tail).map (edgesOf edges), false) := by
  intro ids
  induction ids with
  | nil => intro prev acc _; exact ⟨prev, by simp [stepsLoop]⟩
  | cons id ids ih =>
    intro prev acc h
    rw [stepsLoop]
    have h' : ∀ i ∈ ids, edgesOf edges i ≠ [] := fun i hi => h i (List.mem_cons_of_mem _ hi)
    by_cases hp : id = prev
    · have : stepOf (edgeMap edges) (prev, acc, false) id = .ok (prev, acc, false) := by simp [stepOf, hp]
      rw [this, Outcome.bind_ok]
      obtain ⟨last, hl⟩ := ih prev acc h'
      refine ⟨last, ?_⟩
      rw [hl, List.destutter'_cons, if_neg (by simp [hp])]
    · have hne := h id (List.mem_cons_self ..)
      have hs : stepOf (edgeMap edges) (prev, acc, false) id = .ok (id, acc ++ [edgesOf edges id], false) := by
        unfold stepOf
        rw [if_neg hp, edgeMap_lookup, if_neg hne]
        cases he : edgesOf edges id with
        | nil => exact absurd he hne
        | cons e es => rfl
      rw [hs, Outcome.bind_ok]
      obtain ⟨last, hl⟩ := ih id (acc ++ [edgesOf edges id]) h'
      refine ⟨last, ?_⟩
      rw [hl, List.destutter'_cons, if_pos (fun h => hp h.symm)]
      have hcons : List.destutter' (· ≠ ·) id ids = id :: (List.destutter' (· ≠ ·) id ids).tail := by
        cases ids with
        | nil => simp
        | cons a l =>
          rw [List.destutter'_cons]
          split
          · rfl
          · exact (List.cons_head?_tail (by exact (by
              have : ∀ l : List Int, (List.destutter' (· ≠ ·) id l).head? = some id := by
                intro l
                induction l with
                | nil => rfl
                | cons b l ih => rw [List.destutter'_cons]; split <;> [rfl; exact ih]
              exact this l))).symm
      rw [List.tail_cons]
      conv_rhs => rw [hcons]
      simp

theorem destutter'_head (prev : Int) (l : List Int) : (List.destutter' (· ≠ ·) prev l).head? = some prev := by
  induction l with
  | nil => rfl
  | cons b l ih => rw [List.destutter'_cons]; split <;> [rfl; exact ih]

/-- The steps are those asked for, unless the first identifier is the smallest number. -/
theorem steps_asked (edges : List (Int × E)) (ids : List Int) (h : ∀ id ∈ ids, edgesOf edges id ≠ []) (hmin : ids.head? ≠ some minId) :
    ∃ last, stepsLoop (edgeMap edges) (minId, [], false) ids = .ok (last, (asked ids).map (edgesOf edges), false) := by
  obtain ⟨last, hl⟩ := stepsLoop_ok edges ids minId [] h
  refine ⟨last, ?_⟩
  rw [hl, List.nil_append]
  cases ids with
  | nil => rfl
  | cons a l =>
    have : minId ≠ a := fun h' => hmin (by simp [h'])
    rw [List.destutter'_cons, if_pos this, List.tail_cons]
    rfl

/-! ### Search -/

theorem isConnected_iff (line : E → List P) (p : List E) : isConnected line p = true ↔ p.IsChain (Joins line) := by
  induction p with
  | nil => simp [isConnected]
  | cons a p ih =>
    cases p with
    | nil => simp [isConnected]
    | cons b p =>
      rw [isConnected, Bool.and_eq_true, ih, List.isChain_cons_cons]
      refine and_congr_left (fun _ => ?_)
      unfold Joins
      cases (line a).getLast? <;> cases (line b).head? <;> simp [eq_comm]

/-- A bound on the paths from a step. -/
def weight : List (List E) → Nat
  | [] => 1
  | c :: cs => 1 + c.length * weight cs

theorem fits_prefix {steps : List (List E)} {p q : List E} (h : Fits steps (p ++ q)) : Fits steps p := by
  intro i e hi
  apply h i e
  rw [List.getElem?_append_left]
  · exact hi
  · exact (List.getElem?_eq_some_iff.1 hi).1

theorem fits_length {steps : List (List E)} {p : List E} (h : Fits steps p) : p.length ≤ steps.length := by
  by_contra hlt
  obtain ⟨c, hc, _⟩ := h steps.length (p[steps.length]'(by omega)) (List.getElem?_eq_getElem _)
  have := (List.getElem?_eq_some_iff.1 hc).1
  omega

theorem chain_prefix {line : E → List P} {p q : List E} (h : (p ++ q).IsChain (Joins line)) : p.IsChain (Joins line) :=
  h.left_of_append

theorem better_length (line : E → List P) (path cur : List E) : path.length ≤ (better line path cur).length := by
  unfold better
  split
  · rename_i h; exact Nat.le_of_lt h.2
  · exact Nat.le_refl _

/-- The search ends, and its result is a longest path. -/
theorem search_spec (line : E → List P) (steps : List (List E)) (start : Nat) (hstart : start < steps.length) :
    ∀ (n : Nat) (path : List E) (q : List (Nat × List E)), (q.map (fun x => weight (steps.drop x.1))).sum < n →
      (Fits (steps.drop start) path ∧ path.IsChain (Joins line)) →
      (∀ x ∈ q, x.1 = start + x.2.length ∧ Fits (steps.drop start) x.2 ∧ x.2.IsChain (Joins line)) →
      (∀ other, Fits (steps.drop start) other → other.IsChain (Joins line) → other.length ≤ path.length ∨ ∃ x ∈ q, x.2 <+: other) →
      path.length < steps.length - start →
      ∃ r, search line steps (steps.length - start) n path q = .ok r ∧ Fits (steps.drop start) r.1 ∧ r.1.IsChain (Joins line) ∧
        (∀ other, Fits (steps.drop start) other → other.IsChain (Joins line) → other.length ≤ r.1.length) ∧
        (r.2 = true ↔ r.1.length = steps.length - start) := by
  intro n
  induction n with
  | zero => intro path q h; omega
  | succ n ih =>
    intro path q hw hpath hq hall hshort
    cases q with
    | nil =>
      refine ⟨(path, false), rfl, hpath.1, hpath.2, ?_, ?_⟩
      · intro other h1 h2
        rcases hall other h1 h2 with h | ⟨x, hx, _⟩
        · exact h
        · cases hx
      · simp only [Bool.false_eq_true, false_iff]
        omega
    | cons x q =>
      obtain ⟨step, cur⟩ := x
      obtain ⟨hx1, hx2, hx3⟩ := hq _ (List.mem_cons_self ..)
      simp only at hx1 hx2 hx3
      have hcon : isConnected line cur = true := (isConnected_iff line cur).2 hx3
      rw [search]
      by_cases hend : isConnected line cur = true ∧ cur.length = steps.length - start
      · rw [if_pos hend]
        have hb : better line path cur = cur := by
          unfold better
          rw [if_pos ⟨hcon, by omega⟩]
        rw [hb]
        refine ⟨(cur, true), rfl, hx2, hx3, ?_, by simpa using hend.2⟩
        intro other h1 _
        have := fits_length h1
        rw [List.length_drop] at this
        simp only
        omega
      · rw [if_neg hend]
        have hlt : cur.length < steps.length - start := by
          have h1 := fits_length hx2
          rw [List.length_drop] at h1
          have : cur.length ≠ steps.length - start := fun h => hend ⟨hcon, h⟩
          omega
        have hs : step < steps.length := by omega
        have hex : expand line steps step cur = .ok (((steps[step].map (fun e => cur ++ [e])).filter (isConnected line)).map (fun p => (step + 1, p))) := by
          unfold expand
          rw [if_pos hs, List.getElem?_eq_getElem hs]
        rw [hex, Outcome.bind_ok]
        have hdrop : steps.drop step = steps[step] :: steps.drop (step + 1) := List.drop_eq_getElem_cons hs
        have hget : (steps.drop start)[cur.length]? = some steps[step] := by
          rw [List.getElem?_drop, ← hx1, List.getElem?_eq_getElem hs]
        apply ih
        · rw [List.map_append, List.sum_append]
          simp only [List.map_cons, List.sum_cons] at hw
          have hwx : weight (steps.drop step) = 1 + steps[step].length * weight (steps.drop (step + 1)) := by rw [hdrop, weight]
          have hmore : ((((steps[step].map (fun e => cur ++ [e])).filter (isConnected line)).map (fun p => (step + 1, p))).map
              (fun x => weight (steps.drop x.1))).sum ≤ steps[step].length * weight (steps.drop (step + 1)) := by
            rw [List.map_map]
            have : ∀ l : List (List E), (l.map ((fun x : Nat × List E => weight (steps.drop x.1)) ∘ fun p => (step + 1, p))).sum =
                l.length * weight (steps.drop (step + 1)) := by
              intro l
              induction l with
              | nil => simp
              | cons a l ih => rw [List.map_cons, List.sum_cons, ih]; simp [Nat.succ_mul]; omega
            rw [this]
            apply Nat.mul_le_mul_right
            calc _ ≤ (steps[step].map (fun e => cur ++ [e])).length := List.length_filter_le _ _
              _ = steps[step].length := List.length_map _
          omega
        · unfold better
          split
          · exact ⟨hx2, hx3⟩
          · exact hpath
        · intro y hy
          rcases List.mem_append.1 hy with hy | hy
          · exact hq y (List.mem_cons_of_mem _ hy)
          · simp only [List.mem_map, List.mem_filter] at hy
            obtain ⟨p, ⟨⟨e, he, rfl⟩, hp⟩, rfl⟩ := hy
            refine ⟨by simp; omega, ?_, (isConnected_iff line _).1 hp⟩
            intro i e' hi
            simp only at hi
            rw [List.getElem?_append] at hi
            split at hi
            · exact hx2 i e' hi
            · rename_i hge
              rw [List.getElem?_singleton] at hi
              split at hi
              · have : i = cur.length := by omega
                subst this
                simp only [Option.some.injEq] at hi
                exact ⟨_, hget, hi ▸ he⟩
              · cases hi
        · intro other h1 h2
          rcases hall other h1 h2 with h | ⟨y, hy, hpre⟩
          · left
            exact le_trans h (better_length ..)
          · rcases List.mem_cons.1 hy with rfl | hy
            · simp only at hpre
              obtain ⟨t, ht⟩ := hpre
              cases t with
              | nil =>
                left
                rw [List.append_nil] at ht
                subst ht
                unfold better
                split
                · exact Nat.le_refl _
                · rename_i hnot
                  by_contra hgt
                  exact hnot ⟨hcon, by omega⟩
              | cons e t =>
                right
                have ht' : (cur ++ [e]) ++ t = other := by simpa using ht
                refine ⟨(step + 1, cur ++ [e]), List.mem_append_right _ ?_, ⟨t, ht'⟩⟩
                simp only [List.mem_map, List.mem_filter]
                refine ⟨cur ++ [e], ⟨⟨e, ?_, rfl⟩, (isConnected_iff line _).2 (chain_prefix (ht'.symm ▸ h2))⟩, rfl⟩
                obtain ⟨c, hc, hec⟩ := h1 cur.length e (by rw [← ht]; simp)
                rw [hget] at hc
                simp only [Option.some.injEq] at hc
                exact hc.symm ▸ hec
            · right
              exact ⟨y, List.mem_append_left _ hy, hpre⟩
        · unfold better
          split
          · exact hlt
          · exact hshort

theorem weight_drop (steps : List (List E)) : ∀ start, start ≤ steps.length → (∀ c ∈ steps, c ≠ []) → weight (steps.drop start) ≤ weight steps := by
  induction steps with
  | nil => intro start _ _; simp
  | cons c cs ih =>
    intro start hs hne
    cases start with
    | zero => simp
    | succ start =>
      rw [List.drop_succ_cons, weight]
      have h1 := ih start (by simpa using hs) (fun d hd => hne d (List.mem_cons_of_mem _ hd))
      have h2 : 1 ≤ c.length := List.length_pos_iff.2 (hne c (List.mem_cons_self ..))
      have : weight cs ≤ c.length * weight cs := Nat.le_mul_of_pos_left _ h2
      omega

theorem covered_nil {line : E → List P} {steps : List (List E)} (h : steps = []) : Covered line steps [] := by
  subst h
  exact Covered.nil

theorem pathLoop_spec (line : E → List P) (steps : List (List E)) (hne : ∀ c ∈ steps, c ≠ []) (inner : Nat) (hi : weight steps < inner) :
    ∀ (n start : Nat) (edges : List E), steps.length - start < n →
      ∃ pieces, pathLoop line steps inner n start edges = .ok (edges ++ pieces.flatten) ∧ Covered line (steps.drop start) pieces := by
  intro n
  induction n with
  | zero => intro start edges h; omega
  | succ n ih =>
    intro start edges hn
    rw [pathLoop]
    by_cases hs : start < steps.length
    · rw [if_pos hs]
      obtain ⟨r, hr, h1, h2, h3, h4⟩ := search_spec line steps start hs inner [] [(start, [])]
        (by simpa using lt_of_le_of_lt (weight_drop steps start (Nat.le_of_lt hs) hne) hi) ⟨by intro i e h; simp at h, by simp⟩
        (by
          intro x hx
          rw [List.mem_singleton.1 hx]
          exact ⟨by simp, by intro i e h; simp at h, by simp⟩)
        (by intro other _ _; right; exact ⟨(start, []), List.mem_singleton.2 rfl, List.nil_prefix⟩) (by simp; omega)
      rw [hr, Outcome.bind_ok]
      obtain ⟨e, he⟩ := List.exists_mem_of_ne_nil _ (hne steps[start] (List.getElem_mem _))
      have hlen : 1 ≤ r.1.length := by
        have := h3 [e] (by
          intro i e' hi
          cases i with
          | zero =>
            simp at hi
            refine ⟨steps[start], ?_, hi ▸ he⟩
            rw [List.getElem?_drop, Nat.add_zero, List.getElem?_eq_getElem hs]
          | succ i => simp at hi) (by simp)
        simpa using this
      have hnil : r.1 ≠ [] := List.length_pos_iff.1 hlen
      have hnext : nextStep steps start r = (if r.2 then steps.length else start) + r.1.length := by
        unfold nextStep
        simp [hnil]
      have hrl := fits_length h1
      rw [List.length_drop] at hrl
      have hdrop : (steps.drop start).drop r.1.length = steps.drop (nextStep steps start r) := by
        rw [List.drop_drop, hnext]
        by_cases hb : r.2 = true
        · have := h4.1 hb
          rw [if_pos hb, List.drop_eq_nil_of_le (by omega), List.drop_eq_nil_of_le (by omega)]
        · rw [if_neg hb]
      obtain ⟨pieces, hp1, hp2⟩ := ih (nextStep steps start r) (edges ++ r.1) (by
        rw [hnext]
        split <;> omega)
      refine ⟨r.1 :: pieces, by rw [hp1]; simp, ?_⟩
      exact Covered.cons hnil h1 h2 h3 (by rw [hdrop]; exact hp2)
    · rw [if_neg hs]
      exact ⟨[], by simp, covered_nil (List.drop_eq_nil_of_le (by omega))⟩

/-! ### Pieces as lines -/

theorem covered_length {line : E → List P} {steps pieces : List (List E)} (h : Covered line steps pieces) : pieces.flatten.length = steps.length := by
  induction h with
  | nil => rfl
  | cons ne fits chain longest rest ih =>
    rw [List.flatten_cons, List.length_append, ih, List.length_drop]
    have := fits_length fits
    omega

/-- The edges of all pieces together are edges asked for, step by step. -/
theorem covered_fits {line : E → List P} {steps pieces : List (List E)} (h : Covered line steps pieces) : Fits steps pieces.flatten := by
  induction h with
  | nil => intro i e h; simp at h
  | @cons steps piece pieces ne fits chain longest rest ih =>
    intro i e hi
    rw [List.flatten_cons, List.getElem?_append] at hi
    split at hi
    · exact fits i e hi
    · obtain ⟨c, hc, he⟩ := ih _ _ hi
      rw [List.getElem?_drop] at hc
      refine ⟨c, ?_, he⟩
      rw [← hc]
      congr 1
      omega

theorem covered_ne {line : E → List P} {steps pieces : List (List E)} (h : Covered line steps pieces) : ∀ p ∈ pieces, p ≠ [] ∧ p.IsChain (Joins line) := by
  induction h with
  | nil => simp
  | cons ne fits chain longest rest ih =>
    intro p hp
    rcases List.mem_cons.1 hp with rfl | hp
    · exact ⟨ne, chain⟩
    · exact ih p hp

/-- Neighbouring pieces do not connect. -/
theorem covered_apart {line : E → List P} {steps pieces : List (List E)} (h : Covered line steps pieces) :
    pieces.IsChain (fun p q => ∀ a ∈ p.getLast?, ∀ b ∈ q.head?, ¬ Joins line a b) := by
  induction h with
  | nil => exact List.IsChain.nil
  | @cons steps piece pieces ne fits chain longest rest ih =>
    cases pieces with
    | nil => simp
    | cons q pieces =>
      rw [List.isChain_cons_cons]
      refine ⟨?_, ih⟩
      intro a ha b hb hj
      generalize hd : steps.drop piece.length = sd at rest
      cases rest with
      | cons ne' fits' chain' longest' rest' =>
        have hb' : q[0]? = some b := by
          rw [← List.head?_eq_getElem?]
          exact hb
        obtain ⟨c, hc, hbc⟩ := fits' 0 b hb'
        rw [← hd, List.getElem?_drop, Nat.add_zero] at hc
        have := longest (piece ++ [b]) (by
          intro i e hi
          rw [List.getElem?_append] at hi
          split at hi
          · exact fits i e hi
          · rw [List.getElem?_singleton] at hi
            split at hi
            · have : i = piece.length := by omega
              subst this
              simp only [Option.some.injEq] at hi
              exact ⟨c, hc, hi ▸ hbc⟩
            · cases hi) (by
          rw [List.isChain_append]
          refine ⟨chain, by simp, ?_⟩
          intro x hx y hy
          rw [Option.mem_unique hx ha]
          simp at hy
          exact hy ▸ hj)
        simp at this

theorem splitGroups_pieces {line : E → List P} (hl : ∀ e, line e ≠ []) (pieces : List (List E)) : ∀ (piece : List E) (pre : List E) (a : E),
    (a :: piece).IsChain (Joins line) → (∀ p ∈ pieces, p ≠ [] ∧ p.IsChain (Joins line)) →
    (((a :: piece) :: pieces).IsChain (fun p q => ∀ a ∈ p.getLast?, ∀ b ∈ q.head?, ¬ Joins line a b)) →
    splitGroups ((pre ++ [a]).map line) (line a) ((piece ++ pieces.flatten).map line) =
      ((pre ++ a :: piece) :: pieces).map (List.map line) := by
  have hgap : ∀ a b, gap (line a) (line b) = true ↔ ¬ Joins line a b := by
    intro a b
    unfold gap Joins
    cases h1 : (line a).getLast? with
    | none => exact absurd (List.getLast?_eq_none_iff.1 h1) (hl a)
    | some p =>
      cases h2 : (line b).head? with
      | none => exact absurd (List.head?_eq_none_iff.1 h2) (hl b)
      | some q => simp [eq_comm (a := q)]
  induction pieces with
  | nil =>
    intro piece
    induction piece with
    | nil => intro pre a _ _ _; simp [splitGroups]
    | cons b piece ih =>
      intro pre a hc hp hap
      rw [List.isChain_cons_cons] at hc
      have hg : ¬ gap (line a) (line b) = true := fun h => (hgap a b).1 h hc.1
      simp only [List.cons_append, List.map_cons, splitGroups]
      rw [if_neg hg]
      have := ih (pre ++ [a]) b hc.2 hp (by simp)
      simpa using this
  | cons q pieces ihp =>
    intro piece
    induction piece with
    | nil =>
      intro pre a _ hp hap
      obtain ⟨hq, hqc⟩ := hp q (List.mem_cons_self ..)
      obtain ⟨b, q', rfl⟩ := List.exists_cons_of_ne_nil hq
      rw [List.isChain_cons_cons] at hap
      have hg : gap (line a) (line b) = true := (hgap a b).2 (hap.1 a (by simp) b (by simp))
      simp only [List.nil_append, List.flatten_cons, List.cons_append, List.map_cons, splitGroups]
      rw [if_pos hg]
      have := ihp q' [] b hqc (fun p hp' => hp p (List.mem_cons_of_mem _ hp')) hap.2
      simp only [List.nil_append, List.map_cons, List.map_nil] at this
      rw [this]
    | cons b piece ih =>
      intro pre a hc hp hap
      rw [List.isChain_cons_cons] at hc
      have hg : ¬ gap (line a) (line b) = true := fun h => (hgap a b).1 h hc.1
      simp only [List.cons_append, List.map_cons, splitGroups]
      rw [if_neg hg]
      have := ih (pre ++ [a]) b hc.2 hp (by
        rw [List.isChain_cons_cons] at hap ⊢
        exact ⟨by simpa using hap.1, hap.2⟩)
      simpa using this

theorem covered_lines {line : E → List P} (hl : ∀ e, line e ≠ []) {steps pieces : List (List E)} (h : Covered line steps pieces) (hne : steps ≠ []) :
    multiMerge [] (pieces.flatten.map line) = .ok (pieces.map (fun p => joined (p.map line))) := by
  have hgroups : groupsOf (pieces.flatten.map line) = pieces.map (List.map line) := by
    cases h with
    | nil => exact absurd rfl hne
    | @cons _ piece pieces ne fits chain longest rest =>
      have hc := Covered.cons ne fits chain longest rest
      obtain ⟨a, piece, rfl⟩ := List.exists_cons_of_ne_nil ne
      have := splitGroups_pieces hl pieces piece [] a chain (fun p hp => covered_ne hc p (List.mem_cons_of_mem _ hp)) (covered_apart hc)
      simpa [groupsOf] using this
  have hnon : ∀ p : List E, nonempty (p.map line) = p.map line := by
    intro p
    unfold nonempty
    rw [List.filter_eq_self]
    intro l hl'
    obtain ⟨e, _, rfl⟩ := List.mem_map.1 hl'
    simp [hl e]
  unfold multiMerge
  rw [hgroups, mergeGroups_ok]
  · simp [hnon, Function.comp_def]
  · intro g hg
    obtain ⟨p, hp, rfl⟩ := List.mem_map.1 hg
    rw [hnon, List.isChain_map]
    refine (covered_ne h p hp).2.imp ?_
    rintro a b ⟨q, h1, h2⟩
    exact h1.trans h2.symm

/-! ### C46 -/

/-- **C46**: for every list of known identifiers, the search for pieces ends (`fuel` is any sufficiently large bound), and the track consists of one
line per piece, the joined lines of its edges; the pieces cover all steps asked for, each is connected, and none can be longer.  Missing from the full
statement: a list that begins with the smallest number (`min_id_fails`), and edges without points (`hl`). -/
theorem pieces_partial (line : E → List P) (hl : ∀ e, line e ≠ []) (proj : P → P) (edges : List (Int × E)) (ids : List Int)
    (hk : ∀ id ∈ ids, edgesOf edges id ≠ []) (hne : ids ≠ []) (hmin : ids.head? ≠ some minId) (i : Nat) :
    ∃ N, ∀ fuel, N ≤ fuel → ∃ pieces, Covered line ((asked ids).map (edgesOf edges)) pieces ∧
      readFile line proj edges fuel i (some ids) = .ok (some (toString i, pieces.map (fun p => (joined (p.map line)).map proj))) := by
  obtain ⟨last, hs⟩ := steps_asked edges ids hk hmin
  have hsub : ∀ id ∈ asked ids, id ∈ ids := fun id h => (List.destutter_sublist _ ids).subset h
  have hcs : ∀ c ∈ (asked ids).map (edgesOf edges), c ≠ [] := by
    intro c hc
    obtain ⟨id, hid, rfl⟩ := List.mem_map.1 hc
    exact hk id (hsub id hid)
  have hask : (asked ids).map (edgesOf edges) ≠ [] := by
    obtain ⟨a, l, rfl⟩ := List.exists_cons_of_ne_nil hne
    intro h
    rw [List.map_eq_nil_iff] at h
    have := destutter'_head a l
    rw [show List.destutter' (· ≠ ·) a l = asked (a :: l) from rfl, h] at this
    cases this
  refine ⟨weight ((asked ids).map (edgesOf edges)) + ((asked ids).map (edgesOf edges)).length + 1, fun fuel hf => ?_⟩
  obtain ⟨pieces, hp, hcov⟩ := pathLoop_spec line _ hcs fuel (by omega) fuel 0 [] (by omega)
  rw [List.drop_zero] at hcov
  refine ⟨pieces, hcov, ?_⟩
  unfold readFile
  simp only
  rw [hs, Outcome.bind_ok]
  simp only [Bool.or_false]
  rw [if_neg (by simpa using hask), hp, Outcome.bind_ok, List.nil_append, covered_lines hl hcov hask, Outcome.map_ok, List.map_map]
  rfl

/-- Edges 0 and 1 have identifier 7 (both directions of 0 – 1), edge 2 has identifier 8 (1 – 2), edge 3 identifier 9 (5 – 6). -/
def demoEdges : List (Int × Nat) := [(7, 0), (7, 1), (8, 2), (9, 3)]

/-- Their lines. -/
def demoLine : Nat → List Nat
  | 0 => [1, 0]
  | 1 => [0, 1]
  | 2 => [1, 2]
  | _ => [5, 6]

example : readFile demoLine id demoEdges 20 3 (some [7, 7, 8, 9]) = .ok (some ("3", [[0, 1, 2], [5, 6]])) ∧
    (∀ e, demoLine e ≠ []) ∧ (∀ id ∈ ([7, 7, 8, 9] : List Int), edgesOf demoEdges id ≠ []) ∧ ([7, 7, 8, 9] : List Int).head? ≠ some minId := by
  refine ⟨by decide +kernel, ?_, by decide, by decide⟩
  intro e
  unfold demoLine
  split <;> simp

/-- **C46 fails** when the first identifier is the smallest number: its edge is left out. -/
theorem min_id_fails : readFile demoLine id [(minId, 1), (8, 2)] 20 0 (some [minId, 8]) = .ok (some ("0", [[1, 2]])) := by decide +kernel

/-! ### C61 -/

/-- **C61**: a file with only known identifiers that comes first is imported whatever follows. -/
theorem unknown_partial (line : E → List P) (hl : ∀ e, line e ≠ []) (proj : P → P) (edges : List (Int × E)) (ids : List Int)
    (hk : ∀ id ∈ ids, edgesOf edges id ≠ []) (hne : ids ≠ []) (hmin : ids.head? ≠ some minId) (rest : List (Option (List Int))) :
    ∃ N, ∀ fuel, N ≤ fuel → ∃ t, t ∈ (readFiles line proj edges fuel 0 (some ids :: rest) []).1 ∧ t.1 = "0" := by
  obtain ⟨N, hN⟩ := pieces_partial line hl proj edges ids hk hne hmin 0
  refine ⟨N, fun fuel hf => ?_⟩
  obtain ⟨pieces, _, hr⟩ := hN fuel hf
  have keep : ∀ (fs : List (Option (List Int))) (i : Nat) (out : List (String × List (List P))) (t : String × List (List P)), t ∈ out →
      t ∈ (readFiles line proj edges fuel i fs out).1 := by
    intro fs
    induction fs with
    | nil => intro i out t h; exact h
    | cons f fs ih =>
      intro i out t h
      rw [readFiles]
      split
      · exact ih _ _ _ (List.mem_append_left _ h)
      · exact h
      · exact h
  refine ⟨("0", pieces.map (fun p => (joined (p.map line)).map proj)), ?_, rfl⟩
  rw [readFiles, hr]
  exact keep _ _ _ _ (by simp; rfl)

/-- **C61 fails**: a file with an unknown identifier ends the import with an exception; the file after it is lost. -/
theorem unknown_fails : readFiles demoLine id demoEdges 20 0 [some [7], some [7, 4], some [8]] [] = ([("0", [[1, 0]])], .throws) := by decide +kernel

/-- Files that do not exist or hold no identifier are skipped. -/
theorem missing_skipped (line : E → List P) (proj : P → P) (edges : List (Int × E)) (fuel i : Nat) (fs : List (Option (List Int)))
    (out : List (String × List (List P))) (f : Option (List Int)) (h : f = none ∨ f = some []) :
    readFiles line proj edges fuel i (f :: fs) out = readFiles line proj edges fuel (i + 1) fs out := by
  rw [readFiles]
  have : readFile line proj edges fuel i f = .ok none := by
    rcases h with rfl | rfl
    · rfl
    · simp [readFile, stepsLoop]
  rw [this]
  simp

example : readFiles demoLine id demoEdges 20 0 [none, some [], some [8, 9]] [] = ([("2", [[1, 2], [5, 6]])], .ok ()) := by decide +kernel

end MM.EdgesList
