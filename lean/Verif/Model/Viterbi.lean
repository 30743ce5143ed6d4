import Mathlib.Order.BoundedOrder.Basic

/-!
# Viterbi decoding

Model of `src/library/include/learning/algorithms/viterbi.hpp` 44-145 on the matrices built by
`environment/environments/hmm.hpp` 116-294.  Log probabilities live in a linear order with a least element `⊥`
(`log 0`, minus infinity); the sum of three of them (with its rounding) is an abstract operation.  Time-outs
(`abort()`) are not modelled.
-/

set_option autoImplicit false

namespace MM.Viterbi

variable {P : Type} [LinearOrder P] [OrderBot P]

/-- The matrices (hmm.hpp 116-294): `len` time steps, `n t` candidates at time `t`; `obs t g` the observation
and `tr t g s` the transition log probability from candidate `s` at `t-1` to `g` at `t` (`tr 0 g 0` initial);
`late t` is `log(1 / transitions[t].size())` (viterbi.hpp 99).  `add` and `add3` are the two kinds of sums. -/
structure Hmm (P : Type) where
  len : Nat
  n : Nat → Nat
  obs : Nat → Nat → P
  tr : Nat → Nat → Nat → P
  late : Nat → P
  add : P → P → P
  add3 : P → P → P → P

/-- viterbi.hpp 82-90 and 112-119: first index below `n` with the greatest value, if that is above minus infinity. -/
def argmax (f : Nat → P) : Nat → P × Option Nat
  | 0 => (⊥, none)
  | i + 1 => if (argmax f i).1 < f i then (f i, some i) else argmax f i

variable (h : Hmm P)

/-- State after a time step (viterbi.hpp 55-108): row of `T`, row of `K`, and the flag `initialized`. -/
structure Row (P : Type) where
  T : Nat → P
  K : Nat → Option Nat
  init : Bool

/-- viterbi.hpp 86: probability of reaching `g` at time `t` through `s`. -/
def through (prev : Nat → P) (t g s : Nat) : P := h.add3 (prev s) (h.tr t g s) (h.obs t g)

/-- viterbi.hpp 93: the predecessor chosen for `g` at time `t` (`t > 0`). -/
def chosen (prev : Nat → P) (t g : Nat) : Option Nat := (argmax (through h prev t g) (h.n (t - 1))).2

/-- viterbi.hpp 93-101: new entry of `T`; entries not assigned keep minus infinity (line 59). -/
def entry (prev : Row P) (t g : Nat) : P :=
  match chosen h prev.T t g with
  | some k => through h prev.T t g k
  | none => if prev.init then ⊥ else h.add (h.late t) (h.obs t g)

/-- viterbi.hpp 71-106: the rows.  Row 0 is assigned at 73-76; `initialized` becomes true as soon as a time step has a
candidate (lines 75, 100, 103-105). -/
def row : Nat → Row P
  | 0 => ⟨fun g => h.add (h.tr 0 g 0) (h.obs 0 g), fun _ => none, decide (0 < h.n 0)⟩
  | t + 1 =>
    ⟨entry h (row t) (t + 1), chosen h (row t).T (t + 1),
      (row t).init || (List.range (h.n (t + 1))).any (fun g => (chosen h (row t).T (t + 1) g).isNone)⟩

/-- viterbi.hpp 110-129: backtracking from candidate `k` at time `t`; unassigned selections stay "none". -/
def backtrack : Nat → Option Nat → List (Option Nat)
  | 0, k => [k]
  | t + 1, k => backtrack t (k.bind (row h (t + 1)).K) ++ [k]

/-- viterbi.hpp 54-129: `selections`. -/
def selections : List (Option Nat) :=
  match h.len with
  | 0 => []
  | t + 1 => backtrack h t (argmax (row h t).T (h.n t)).2

/-- viterbi.hpp 132-138: the policy, pairs of time index and candidate. -/
def policy : List (Nat × Nat) :=
  (selections h).zipIdx.filterMap (fun p => p.1.map (fun k => (p.2, k)))

end MM.Viterbi
