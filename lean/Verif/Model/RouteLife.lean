import Verif.Model.Route

/-!
# Routes as objects: copies, moves and destruction

A route owns some of its lines and refers to the others (`Model/Route.lean`).  Here routes are objects with a lifetime: they are
copied, moved, assigned, merged, joined, cut and destroyed, and the lines they own come and go with them.  Lines outside (edges of
the network, candidates) outlive all routes.  Line numbers are those of
/repo/src/library/include/geometry/network/route/route.hpp.

Simplified: addresses are never used again, so that a reference to a line that is gone leads nowhere.  A merge that is refused
(`route_merge_exception`) leaves no result, its arguments are moved from.
-/

set_option autoImplicit false

namespace MM.RouteLife

open MM.Line MM.Route

variable {P : Type} [DecidableEq P] {R A : Type}

/-- route.hpp 964-987 `_copy_rich_lines`: own lines are copied to new addresses, other references are kept. -/
def copyLines : List (Ref P) → List (Ref P) → Acc P → Acc P
  | _, [], acc => acc
  | [], r :: rs, acc => copyLines [] rs ⟨acc.own, acc.refs ++ [r], acc.next⟩
  | o :: os, r :: rs, acc =>
    if o.addr = r.addr then
      copyLines os rs ⟨acc.own ++ [⟨acc.next, o.line⟩], acc.refs ++ [⟨acc.next, o.line⟩], acc.next + 1⟩
    else copyLines (o :: os) rs ⟨acc.own, acc.refs ++ [r], acc.next⟩

/-- route.hpp 90-93: the copy constructor; `next` is the next free address. -/
def copyRoute (r : Route P) (next : Nat) : Route P :=
  ⟨(copyLines r.own r.refs ⟨[], [], next⟩).own, (copyLines r.own r.refs ⟨[], [], next⟩).refs, r.invalid⟩

/-- route.hpp 95-98, 959-962: what is left of a route that was moved from (`std::list` and `std::vector` are empty then). -/
def movedFrom (r : Route P) : Route P := ⟨[], [], r.invalid⟩

/-- The lines outside, found at the addresses 0, 1, …; the routes, `none` for those that were destroyed or not made; the next free
address (route.hpp 953-955). -/
structure World (P : Type) where
  outside : List (List P)
  slots : List (Option (Route P))
  next : Nat

/-- No routes yet (route.hpp 953-955). -/
def World.init (outside : List (List P)) : World P := ⟨outside, [], outside.length⟩

/-- The lines owned by routes that exist (route.hpp 953; `std::list` destroys its elements with itself). -/
def World.owned (w : World P) : List (Ref P) := (w.slots.filterMap id).flatMap Route.own

/-- What is found at an address: a line outside or one owned by a route that exists (route.hpp 42-43). -/
def World.peek (w : World P) (a : Nat) : Option (List P) :=
  match w.outside[a]? with
  | some l => some l
  | none => (w.owned.find? (fun x => x.addr == a)).map Ref.line

/-- All references of the route lead to the lines they were made for (route.hpp 42-43, 954). -/
def World.sees (w : World P) (r : Route P) : Bool := r.refs.all fun x => decide (w.peek x.addr = some x.line)

/-- A route that exists (route.hpp 116: the destructor ends its life). -/
def World.get (w : World P) (i : Nat) : Outcome (Route P) :=
  match w.slots[i]? with
  | some (some r) => .ok r
  | _ => .ub

/-- A route that exists and whose lines are read (route.hpp 954; 116-416). -/
def World.view (w : World P) (i : Nat) : Outcome (Route P) := (w.get i).bind fun r => if w.sees r then .ok r else .ub

/-- A new route (route.hpp 60-98, its constructors). -/
def World.push (w : World P) (r : Route P) : World P :=
  ⟨w.outside, w.slots ++ [some r], max w.next (r.refs.foldr (fun x n => max (x.addr + 1) n) 0)⟩

/-- A route is changed (route.hpp 100-114, 829-904); lines it owned before are destroyed. -/
def World.put (w : World P) (i : Nat) (r : Route P) : World P :=
  ⟨w.outside, w.slots.set i (some r), max w.next (r.refs.foldr (fun x n => max (x.addr + 1) n) 0)⟩

/-- What is done with routes (route.hpp 62-114, 471, 733, 829; destructor 116). -/
inductive Op (P : Type) where
  | refer (is : List Nat)
  | own (ls : List (List P))
  | invalid
  | copy (i : Nat)
  | move (i : Nat)
  | assign (i j : Nat)
  | moveAssign (i j : Nat)
  | merge (connect except : Bool) (is : List Nat)
  | join (retain : Bool) (i j : Nat)
  | sub (i a b : Nat)
  | destroy (i : Nat)

/-- The routes named are moved out one after the other (route.hpp 733-735: the vector takes them over). -/
def takeAll : List Nat → World P → Outcome (List (Route P) × World P)
  | [], w => .ok ([], w)
  | i :: is, w => (w.view i).bind fun r => (takeAll is (w.put i (movedFrom r))).map fun x => (r :: x.1, x.2)

/-- References to lines outside (route.hpp 80-81). -/
def referTo (outside : List (List P)) : List Nat → Option (List (Ref P))
  | [] => some []
  | i :: is =>
    match outside[i]?, referTo outside is with
    | some l, some rs => some (⟨i, l⟩ :: rs)
    | _, _ => none

/-- New lines at new addresses (route.hpp 70-73). -/
def newLines : Nat → List (List P) → List (Ref P)
  | _, [] => []
  | a, l :: ls => ⟨a, l⟩ :: newLines (a + 1) ls

/-- One operation (route.hpp).  62-63: an invalid route; 70-73, 989-996: a route that owns lines; 80-81: a route of references; 90-114: copies,
moves and assignments, which do nothing if a route is assigned to itself; 733-827 `merge`; 829-904 `join`; 471-516 `sub_route`; 116:
destruction. -/
def step (G : Geo P R A) (turn : A → Bool) (w : World P) : Op P → Outcome (World P)
  | .refer is =>
    match referTo w.outside is with
    | some rs => .ok (w.push (Route.ofRefs rs))
    | none => .ub
  | .own ls => .ok (w.push (Route.ofOwn (newLines w.next ls)))
  | .invalid => .ok (w.push Route.bad)
  | .copy i => (w.get i).map fun r => w.push (copyRoute r w.next)
  | .move i => (w.get i).map fun r => (w.put i (movedFrom r)).push r
  | .assign i j => (w.get i).bind fun _ => (w.get j).map fun r => if i = j then w else w.put i (copyRoute r w.next)
  | .moveAssign i j => (w.get i).bind fun _ => (w.get j).map fun r => if i = j then w else (w.put j (movedFrom r)).put i r
  | .merge connect except is => (takeAll is w).bind fun x =>
      match merge connect except x.2.next x.1 with
      | .ok r => .ok (x.2.push r)
      | .throws => .ok ⟨x.2.outside, x.2.slots ++ [none], x.2.next⟩
      | .ub => .ub
  | .join retain i j => (w.view i).bind fun a => (w.view j).map fun b =>
      (w.put i (join G turn retain w.next a b).1).put j (join G turn retain w.next a b).2
  | .sub i a b => (w.view i).bind fun r => (subRoute r a b w.next).map fun s => w.push s
  | .destroy i => (w.get i).map fun _ => ⟨w.outside, w.slots.set i none, w.next⟩

/-- Any sequence of operations (route.hpp 62-114, 471, 733, 829). -/
def run (G : Geo P R A) (turn : A → Bool) : List (Op P) → World P → Outcome (World P)
  | [], w => .ok w
  | o :: os, w => (step G turn w o).bind (run G turn os)

end MM.RouteLife
