import Verif.Model.ShortestPath

/-! # Specification: walks in a weighted directed graph and their cost

The only notions the shortest-path theorems are stated with. -/

set_option autoImplicit false

namespace MM.SP

variable {V W D : Type} [LinearOrder D] [Cost D W]

/-- `Walk g a b ws`: there is a directed walk from `a` to `b` whose edges have the weights `ws` in order. -/
inductive Walk (g : Graph V W) (a : V) : V → List W → Prop where
  | nil : Walk g a a []
  | snoc {b c : V} {ws : List W} {w : W} : Walk g a b ws → (c, w) ∈ g b → Walk g a c (ws ++ [w])

/-- Accumulated weight, summed from the start as the search does. -/
def cost (D : Type) [LinearOrder D] {W : Type} [Cost D W] (ws : List W) : D :=
  ws.foldl Cost.add (Cost.zero W)

/-- `d` is the minimal cost over all walks from `a` to `b`. -/
def MinCost (g : Graph V W) (a b : V) (d : D) : Prop :=
  (∃ ws, Walk g a b ws ∧ cost D ws = d) ∧ ∀ ws, Walk g a b ws → d ≤ cost D ws

def Reachable (g : Graph V W) (a b : V) : Prop := ∃ ws, Walk g a b ws

/-- `VPath g p ws`: consecutive vertices of `p` are joined by edges with the weights `ws`. -/
inductive VPath (g : Graph V W) : List V → List W → Prop where
  | single (a : V) : VPath g [a] []
  | cons {a b : V} {p : List V} {w : W} {ws : List W} :
      (b, w) ∈ g a → VPath g (b :: p) ws → VPath g (a :: b :: p) (w :: ws)

/-- A walk all of whose vertices satisfy `ok`. -/
inductive WalkIn (g : Graph V W) (ok : V → Prop) (a : V) : V → List W → Prop where
  | nil : ok a → WalkIn g ok a a []
  | snoc {b c : V} {ws : List W} {w : W} :
      WalkIn g ok a b ws → (c, w) ∈ g b → ok c → WalkIn g ok a c (ws ++ [w])

end MM.SP
