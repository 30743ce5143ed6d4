/-!
# Pairing of matches and ground truths (compare/comparator/comparator_forwarder_*.cpp)

Called by one thread (app/compare.cpp 105-109).  The hash maps are association lists; their order of iteration is that of
insertion here, the theorems do not depend on it.
-/

set_option autoImplicit false

namespace MM.Forwarder

variable {I V : Type} [DecidableEq I]

/-- comparator_forwarder_data.hpp 36-37, and the calls of `comparator_ref.compare` so far: identifier, match (`none` is the empty
match of comparator_forwarder_data.cpp 41), ground truth. -/
structure State (I V : Type) where
  hits : List (I × V)
  compares : List (I × V)
  log : List (I × Option V × V)

/-- `find` (comparator_forwarder_matches.cpp 22, comparator_forwarder_compares.cpp 22). -/
def find (m : List (I × V)) (i : I) : Option V := (m.find? (fun e => decide (e.1 = i))).map Prod.snd

/-- `erase` (comparator_forwarder_matches.cpp 25, comparator_forwarder_compares.cpp 25). -/
def erase (m : List (I × V)) (i : I) : List (I × V) := m.filter (fun e => decide (e.1 ≠ i))

/-- `emplace`, without effect if the key exists (comparator_forwarder_matches.cpp 27, comparator_forwarder_compares.cpp 27). -/
def emplace (m : List (I × V)) (i : I) (v : V) : List (I × V) := if (find m i).isSome then m else m ++ [(i, v)]

/-- comparator_forwarder_matches.cpp 20-29 `pass`. -/
def passMatch (st : State I V) (i : I) (v : V) : State I V :=
  match find st.compares i with
  | some g => { st with log := st.log ++ [(i, some v, g)], compares := erase st.compares i }
  | none => { st with hits := emplace st.hits i v }

/-- comparator_forwarder_compares.cpp 20-29 `pass`. -/
def passCompare (st : State I V) (i : I) (g : V) : State I V :=
  match find st.hits i with
  | some v => { st with log := st.log ++ [(i, some v, g)], hits := erase st.hits i }
  | none => { st with compares := emplace st.compares i g }

/-- What arrives: a match or a ground truth (comparator_forwarder_matches.cpp 20, comparator_forwarder_compares.cpp 20). -/
inductive Event (I V : Type) where
  | hit (i : I) (v : V)
  | truth (i : I) (g : V)

/-- The call for what arrives (comparator_forwarder_matches.cpp 20-29, comparator_forwarder_compares.cpp 20-29). -/
def pass (st : State I V) : Event I V → State I V
  | .hit i v => passMatch st i v
  | .truth i g => passCompare st i g

/-- All calls, beginning with empty maps (comparator_forwarder_data.cpp 20-21). -/
def run (es : List (Event I V)) : State I V := es.foldl pass ⟨[], [], []⟩

/-- comparator_forwarder_data.cpp 29-47 `finish`. -/
def finish (ignore : Bool) (st : State I V) : State I V :=
  if ignore then st else { st with log := st.log ++ st.compares.map (fun e => (e.1, none, e.2)) }

end MM.Forwarder
