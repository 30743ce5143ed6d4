import Verif.Model.Coordinator

/-!
# From the reader to the file: two coordinators and their destruction

Model of `_start_matching` (match.hpp 146-152) and `_start_comparison` (compare.cpp 115-119), of the constructors and destructors
of `matcher` (matcher.hpp 67-87) and `comparator` (comparator.cpp 23-38), and of the end of `execute` (matcher.hpp 179-183,
comparator.hpp 86-89).  The two coordinators are the ones of `Verif.Model.Coordinator`: the matcher (or comparator) itself and one
exporter; the other exporter and the printer are used in the same way and left out.  Everything `execute` does before its results
are passed on is one step together with that.
-/

set_option autoImplicit false

namespace MM.Lifetime

open MM.Coordinator

/-- Where the main thread stands (match.hpp 60-61, 124-152; compare.cpp 47-48, 93-119). -/
inductive Main where
  /-- match.hpp 124-140 (compare.cpp 93-109): reading. -/
  | reading
  /-- match.hpp 60 (compare.cpp 47). -/
  | joining
  /-- matcher.hpp 80-82 (comparator.cpp 33-34), destructor called by match.hpp 61, compare.cpp 48, or by an exception. -/
  | exporterStop
  /-- matcher.hpp 84-86 (comparator.cpp 36-37). -/
  | exporterJoin
  /-- coordinator.hpp 40-43: the members of the matcher are destroyed, the destructor of the base class closes the queue. -/
  | base
  /-- coordinator.hpp 44. -/
  | baseJoin
  /-- The object is destroyed. -/
  | gone
deriving DecidableEq

/-- Do the members (matcher.hpp 98-101, comparator.hpp 53-54) still exist? -/
def Main.alive : Main → Bool
  | .reading | .joining | .exporterStop | .exporterJoin => true
  | .base | .baseJoin | .gone => false

/-- Both coordinators (matcher.hpp 52, 99) and the main thread (match.hpp 146-152); rows that the exporter refused since its queue
was closed; what was queued when the reader threw an exception, if it did; has something destroyed been used? -/
structure Sys (T : Type) where
  outer : State T
  exporter : State T
  main : Main
  lost : List T
  threw : Option (List T)
  ub : Bool
deriving DecidableEq

variable {T : Type}

/-- match.hpp 38-56, compare.cpp 34-44: matcher and exporters are constructed and started (matcher.hpp 74-76, comparator.cpp
28-29); `tracks` will be read. -/
def init (co ce : Config) (tracks : List T) : Sys T :=
  { outer := { Coordinator.init co [tracks] with pc := .testEmpty }
    exporter := { Coordinator.init ce [] with pc := .testEmpty }
    main := .reading, lost := [], threw := none, ub := false }

/-- A step of the coordinator thread or of a worker (coordinator.hpp 78-98). -/
def Own (c : Config) (s s' : State T) : Prop := Step c s s' ∧ s'.producers = s.producers ∧ s'.closed = s.closed ∧ s.pc ≠ .idle

/-- csv_match_exporter.hpp 111-113, coordinator.hpp 47-53: the exporter accepts a row. -/
def accept (e : State T) (t : T) : State T := { e with queue := e.queue ++ [t], accepted := e.accepted ++ [t] }

/-- One step of some thread; `fails` says for which tracks `execute` throws before results are passed on (matcher.hpp 203-211,
comparator.cpp 63-72). -/
inductive SysStep (co ce : Config) (fails : T → Bool) : Sys T → Sys T → Prop
  /-- coordinator.hpp 78-98, without the end of `execute`. -/
  | outer (s : Sys T) (o : State T) (h : Own co s.outer o) (he : o.executed = s.outer.executed) :
      SysStep co ce fails s { s with outer := o }
  /-- coordinator.hpp 78-98 for the exporter. -/
  | exporter (s : Sys T) (e : State T) (h : Own ce s.exporter e) : SysStep co ce fails s { s with exporter := e }
  /-- matcher.hpp 179-183: the row is passed on. -/
  | write (s : Sys T) (o : State T) (t : T) (h : Own co s.outer o) (he : o.executed = s.outer.executed ++ [t]) (hf : fails t = false)
      (ha : s.main.alive = true) (hc : s.exporter.closed = false) (hq : s.exporter.queue.length < ce.size) :
      SysStep co ce fails s { s with outer := o, exporter := accept s.exporter t }
  /-- The queue of the exporter is closed, the row is refused; nothing is told (coordinator.hpp 52). -/
  | refuse (s : Sys T) (o : State T) (t : T) (h : Own co s.outer o) (he : o.executed = s.outer.executed ++ [t]) (hf : fails t = false)
      (ha : s.main.alive = true) (hc : s.exporter.closed = true) :
      SysStep co ce fails s { s with outer := o, lost := s.lost ++ [t] }
  /-- `execute` throws; coordinator.hpp 88-90, the exception ends in the future that nobody keeps (84). -/
  | fail (s : Sys T) (o : State T) (t : T) (h : Own co s.outer o) (he : o.executed = s.outer.executed ++ [t]) (hf : fails t = true)
      (ha : s.main.alive = true) : SysStep co ce fails s { s with outer := o }
  /-- `execute` of an object whose members are destroyed: undefined behaviour. -/
  | dead (s : Sys T) (o : State T) (t : T) (h : Own co s.outer o) (he : o.executed = s.outer.executed ++ [t]) (ha : s.main.alive = false) :
      SysStep co ce fails s { s with outer := o, ub := true }
  /-- A track is read and queued (matcher.hpp 93-95). -/
  | read (s : Sys T) (o : State T) (hm : s.main = .reading) (h : Step co s.outer o) (hp : o.producers ≠ s.outer.producers) :
      SysStep co ce fails s { s with outer := o }
  /-- The reader throws; the stack is unwound, `matcher` of match.hpp 149 is destroyed. -/
  | throw (s : Sys T) (hm : s.main = .reading) : SysStep co ce fails s { s with main := .exporterStop, threw := some s.outer.accepted }
  /-- match.hpp 143 (compare.cpp 112): all is read, `stop`. -/
  | stop (s : Sys T) (hm : s.main = .reading) (hp : s.outer.producers.flatten = []) :
      SysStep co ce fails s { s with main := .joining, outer := { s.outer with closed := true } }
  /-- match.hpp 60 returns. -/
  | joined (s : Sys T) (hm : s.main = .joining) (hd : s.outer.pc = .done) : SysStep co ce fails s { s with main := .exporterStop }
  /-- matcher.hpp 80-82. -/
  | exporterStop (s : Sys T) (hm : s.main = .exporterStop) :
      SysStep co ce fails s { s with main := .exporterJoin, exporter := { s.exporter with closed := true } }
  /-- matcher.hpp 84-86 returns, the members are destroyed. -/
  | exporterJoined (s : Sys T) (hm : s.main = .exporterJoin) (hd : s.exporter.pc = .done) : SysStep co ce fails s { s with main := .base }
  /-- coordinator.hpp 41-43. -/
  | baseClose (s : Sys T) (hm : s.main = .base) :
      SysStep co ce fails s { s with main := .baseJoin, outer := { s.outer with closed := true } }
  /-- coordinator.hpp 44 returns. -/
  | baseJoined (s : Sys T) (hm : s.main = .baseJoin) (hd : s.outer.pc = .done) : SysStep co ce fails s { s with main := .gone }

end MM.Lifetime
