/-!
# Memoised distances and azimuths (geometry/cache.cpp, algorithm/distance.hpp, algorithm/azimuth.hpp)

One thread.  `K` is the key type of a cache, the coordinates of both points (cache.hpp 45); `C` is the coordinate system,
which is a type parameter of the functions and not part of the key.
-/

set_option autoImplicit false

namespace MM.Memo

variable {K C V : Type} [DecidableEq K]

/-- The flag and the cache of the thread (cache.cpp 20-23), for distances or for azimuths. -/
structure State (K V : Type) where
  use : Bool
  cache : Option (List (K × V))

/-- Before the first call (cache.cpp 20-23). -/
def start : State K V := ⟨false, none⟩

/-- `find` in the hash map (distance.hpp 53, azimuth.hpp 42). -/
def find (m : List (K × V)) (k : K) : Option V := (m.find? (fun e => decide (e.1 = k))).map Prod.snd

/-- distance.hpp 38-65 `point_distance`, azimuth.hpp 28-54 `azimuth_rad`: result and new state. -/
def query (direct : C → K → V) (st : State K V) (c : C) (k : K) : V × State K V :=
  if st.use then
    match find (st.cache.getD []) k with
    | some v => (v, { st with cache := some (st.cache.getD []) })
    | none => (direct c k, { st with cache := some ((k, direct c k) :: st.cache.getD []) })
  else (direct c k, st)

/-- What can happen in a thread (cache.cpp 25-41, distance.hpp 38-65). -/
inductive Event (K C : Type) where
  /-- cache.cpp 25-28 `enable_cache`. -/
  | enable
  /-- cache.cpp 30-33 `disable_cache`. -/
  | disable
  /-- cache.cpp 35-41 `reset_distance_cache`, `reset_azimuth_cache`. -/
  | reset
  /-- distance.hpp 38-65, azimuth.hpp 28-54. -/
  | ask (c : C) (k : K)

/-- One event; a query yields a result (cache.cpp 25-41). -/
def step (direct : C → K → V) (st : State K V) : Event K C → Option V × State K V
  | .enable => (none, { st with use := true })
  | .disable => (none, { st with use := false })
  | .reset => (none, { st with cache := some [] })
  | .ask c k => (some (query direct st c k).1, (query direct st c k).2)

/-- The state after a history of events (cache.cpp 20-41: the state lives as long as the thread). -/
def run (direct : C → K → V) : State K V → List (Event K C) → State K V
  | st, [] => st
  | st, e :: es => run direct (step direct st e).2 es

end MM.Memo
