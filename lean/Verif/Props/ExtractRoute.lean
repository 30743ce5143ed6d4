import Verif.Model.ExtractRoute
import Mathlib.Order.Basic
import Mathlib.Order.Nat
import Mathlib.Data.List.Forall2
import Mathlib.Data.List.Induction

/-! # Property theorems C12 (route of a vertex path) -/

set_option autoImplicit false
set_option linter.unusedSectionVars false

namespace MM.Extract

variable {V L : Type} [DecidableEq V] [LinearOrder L]

/-- `l` is a non-empty line of an edge from `v` to `w` and no non-empty edge from `v` to `w` is shorter. -/
def MinimalFor (adj : V → List (Out V L)) (p : V × V) (l : Line L) : Prop :=
  (p.2, l) ∈ adj p.1 ∧ l.empty = false ∧
  ∀ l', (p.2, l') ∈ adj p.1 → l'.empty = false → ∀ x y, l.len = some x → l'.len = some y → x ≤ y

/-- Consecutive pairs of a path. -/
def pairs : List V → List (V × V)
  | v :: w :: rest => (v, w) :: pairs (w :: rest)
  | _ => []

/-- Every non-empty line has a length (it has at least two points). -/
def Measured (adj : V → List (Out V L)) : Prop := ∀ v w l, (w, l) ∈ adj v → l.empty = false → l.len ≠ none

/-- State of the scan after the edges `es`. -/
structure ScanInv (next : V) (es : List (Out V L)) (b : Best L) : Prop where
  some_mem : ∀ l, b.line = some l → (next, l) ∈ es ∧ l.empty = false ∧ l.len = b.shortest
  none_none : b.line = none → b.shortest = none ∧ ∀ l, (next, l) ∈ es → l.empty = true
  least : ∀ l, (next, l) ∈ es → l.empty = false → ∀ x, l.len = some x → ∃ y, b.shortest = some y ∧ y ≤ x

theorem scan_inv (next : V) (es : List (Out V L)) (hm : ∀ l, (next, l) ∈ es → l.empty = false → l.len ≠ none) :
    ScanInv next es (es.foldl (scanOne next) ⟨none, none⟩) := by
  induction es using List.reverseRecOn with
  | nil => constructor <;> simp
  | append_singleton es e ih =>
    have ih := ih (fun l hl => hm l (by simp [hl]))
    rw [List.foldl_append, List.foldl_cons, List.foldl_nil]
    generalize es.foldl (scanOne next) ⟨none, none⟩ = b at ih
    obtain ⟨w, l⟩ := e
    unfold scanOne
    by_cases hw : w = next
    · subst hw
      simp only [if_true]
      by_cases ha : accepts b l = true
      · simp only [ha, if_true]
        have he : l.empty = false := by
          simp only [accepts, Bool.and_eq_true, Bool.not_eq_true'] at ha; exact ha.1
        cases hlen : l.len with
        | none => exact absurd hlen (hm l (by simp) he)
        | some x =>
          refine ⟨?_, by simp, ?_⟩
          · intro l' hl'
            simp only [Option.some.injEq] at hl'
            subst hl'
            exact ⟨by simp, he, by simp [hlen]⟩
          · intro l' hl' he' y hy
            show ∃ z, (some x : Option L) = some z ∧ z ≤ y
            rcases List.mem_append.1 hl' with hl' | hl'
            · obtain ⟨z, hz, hzy⟩ := ih.least l' hl' he' y hy
              simp [accepts, he, hlen, hz] at ha
              exact ⟨x, rfl, le_trans (le_of_lt ha) hzy⟩
            · simp only [List.mem_singleton, Prod.mk.injEq, true_and] at hl'
              subst hl'
              rw [hlen] at hy
              cases hy
              exact ⟨x, rfl, le_refl _⟩
      · rw [if_neg ha]
        refine ⟨?_, ?_, ?_⟩
        · intro l' hl'
          obtain ⟨h1, h2⟩ := ih.some_mem l' hl'
          exact ⟨by simp [h1], h2⟩
        · intro hn
          obtain ⟨h1, h2⟩ := ih.none_none hn
          refine ⟨h1, ?_⟩
          intro l' hl'
          rcases List.mem_append.1 hl' with hl' | hl'
          · exact h2 l' hl'
          · simp only [List.mem_singleton, Prod.mk.injEq, true_and] at hl'
            subst hl'
            by_contra he
            apply ha
            simp only [Bool.not_eq_true] at he
            cases hlen : l'.len <;> simp [accepts, he, hlen, h1]
        · intro l' hl' he' y hy
          rcases List.mem_append.1 hl' with hl' | hl'
          · exact ih.least l' hl' he' y hy
          · simp only [List.mem_singleton, Prod.mk.injEq, true_and] at hl'
            subst hl'
            cases hs : b.shortest with
            | none => exfalso; apply ha; simp [accepts, he', hy, hs]
            | some z =>
              refine ⟨z, rfl, ?_⟩
              by_contra hc
              exact ha (by simpa [accepts, he', hy, hs] using hc)
    · simp only [hw, if_false]
      have hmem : ∀ l', (next, l') ∈ es ++ [(w, l)] → (next, l') ∈ es := by
        intro l' hl'
        rcases List.mem_append.1 hl' with hl' | hl'
        · exact hl'
        · simp only [List.mem_singleton, Prod.mk.injEq] at hl'
          exact absurd hl'.1.symm hw
      exact ⟨fun l' hl' => ⟨by simp [(ih.some_mem l' hl').1], (ih.some_mem l' hl').2⟩,
        fun hn => ⟨(ih.none_none hn).1, fun l' hl' => (ih.none_none hn).2 l' (hmem l' hl')⟩,
        fun l' hl' => ih.least l' (hmem l' hl')⟩

theorem choose_some {adj : V → List (Out V L)} (hm : Measured adj) {v w : V} {l : Line L}
    (h : choose adj v w = some l) : MinimalFor adj (v, w) l := by
  have hi := scan_inv w (adj v) (fun l hl => hm v w l hl)
  obtain ⟨h1, h2, h3⟩ := hi.some_mem l h
  refine ⟨h1, h2, ?_⟩
  intro l' hl' he' x y hx hy
  obtain ⟨z, hz, hzy⟩ := hi.least l' hl' he' y hy
  rw [← h3, hx] at hz
  cases hz
  exact hzy

theorem choose_none {adj : V → List (Out V L)} (hm : Measured adj) {v w : V} (h : choose adj v w = none) :
    ∀ l, (w, l) ∈ adj v → l.empty = true :=
  ((scan_inv w (adj v) (fun l hl => hm v w l hl)).none_none h).2

/-- **C12, what holds.** If every two consecutive vertices of the path are joined by an edge with a non-empty line,
then the route has exactly one line per consecutive pair, in order, each belonging to an edge of the pair and of
minimal length among the parallel edges.  Missing: pairs without an edge, see `missing_edge_bridged_fails`. -/
theorem extract_route_partial (adj : V → List (Out V L)) (hm : Measured adj) (path : List V)
    (hj : ∀ p ∈ pairs path, ∃ l, (p.2, l) ∈ adj p.1 ∧ l.empty = false) :
    List.Forall₂ (MinimalFor adj) (pairs path) (edgesOf adj path) ∧
    (extractRoute adj path = if path = [] then .invalid else if path.length = 1 then .stay
      else .lines (edgesOf adj path)) := by
  have h1 : List.Forall₂ (MinimalFor adj) (pairs path) (edgesOf adj path) := by
    induction path with
    | nil => exact .nil
    | cons v path ih =>
      cases path with
      | nil => exact .nil
      | cons w rest =>
        simp only [pairs, edgesOf]
        cases hc : choose adj v w with
        | none =>
          obtain ⟨l, hl, he⟩ := hj (v, w) (by simp [pairs])
          rw [choose_none hm hc l hl] at he
          cases he
        | some l =>
          exact .cons (choose_some hm hc) (ih (fun p hp => hj p (by simp [pairs, hp])))
  refine ⟨h1, ?_⟩
  unfold extractRoute
  by_cases hp : path = []
  · simp [hp]
  · rw [if_neg hp, if_neg hp]
    have hlen := h1.length_eq
    match path, hp, hlen with
    | [v], _, _ => simp [edgesOf]
    | v :: w :: rest, _, hlen =>
      rw [if_neg, if_neg]
      · simp
      · intro hc
        rw [hc] at hlen
        simp [pairs] at hlen

/-- **C12, false for other paths.** A pair of vertices without an edge adds nothing and is not noticed (network.hpp
330): the route jumps from the end of one edge to the start of another. -/
theorem missing_edge_bridged_fails :
    ∃ adj : Nat → List (Out Nat Nat), Measured adj ∧ (∀ l, (2, l) ∉ adj 1) ∧
      extractRoute adj [0, 1, 2, 3] = .lines [⟨1, false, some 5⟩, ⟨2, false, some 4⟩] := by
  refine ⟨fun | 0 => [(1, ⟨1, false, some 5⟩)] | 2 => [(3, ⟨2, false, some 4⟩)] | _ => [], ?_, ?_, by decide⟩
  · intro v w l h he hn
    match v, h with
    | 0, h => simp at h; rw [h.2] at hn; cases hn
    | 2, h => simp at h; rw [h.2] at hn; cases hn
    | 1, h => simp at h
    | _ + 3, h => simp at h
  · simp

/-- **C12, false for lines without a length.** A parallel edge whose line is a single point is replaced by any edge
that has a length, so the choice is not minimal (network.hpp 320-325: only measured lines set the shortest length). -/
theorem unmeasured_line_fails :
    choose (fun _ : Nat => [(1, (⟨1, false, none⟩ : Line Nat)), (1, ⟨2, false, some 9⟩)]) 0 1 =
      some ⟨2, false, some 9⟩ ∧
    choose (fun _ : Nat => [(1, (⟨2, false, some 9⟩ : Line Nat)), (1, ⟨1, false, none⟩)]) 0 1 =
      some ⟨1, false, none⟩ := by
  decide

/-- Parallel edges of different lengths, one of them without points; the shortest non-empty one is used. -/
example : extractRoute (fun | 0 => [(1, ⟨1, false, some 5⟩), (2, ⟨2, false, some 1⟩), (1, ⟨3, true, none⟩),
      (1, ⟨4, false, some 3⟩), (1, ⟨5, false, some 3⟩)] | _ => [(2, ⟨6, false, some 8⟩)]) [0, 1, 2] =
    Route.lines [⟨4, false, some 3⟩, (⟨6, false, some 8⟩ : Line Nat)] := by
  decide

end MM.Extract
