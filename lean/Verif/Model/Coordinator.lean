/-!
# Tasks executed by a pool of threads (util/coordinator.hpp)

Transition system of the threads that take part: the threads that call `queue`, the one that calls `start` and `stop`, the
coordinator thread and the workers.  Each step is one operation under the mutex of one of the two queues
(`boost::sync_bounded_queue`, queue of `boost::basic_thread_pool`) or on the semaphore; these operations are atomic.  A blocking
operation is a step that is only enabled when it does not block.  What boost does inside is not part of the repository, the
model takes its documented behaviour: `wait_push_back` waits while the queue is full and gives up when it is closed,
`wait_pull_front` waits while it is empty and gives up when it is also closed; the workers take tasks until the closed pool is
empty; an exception thrown by a task is stored in its future and does not end the worker.
-/

set_option autoImplicit false

namespace MM.Coordinator

/-- coordinator.hpp 33-38: number of workers, size of the queue and of the semaphore. -/
structure Config where
  threads : Nat
  size : Nat

/-- coordinator.hpp 33-34: the constructor with one argument. -/
def Config.ofThreads (threads : Nat) : Config := ⟨threads, if threads = 1 then threads else 2 * threads⟩

/-- Where the coordinator thread stands (coordinator.hpp 55-63, 78-98). -/
inductive Pc (T : Type) where
  /-- Before line 56. -/
  | idle
  /-- Line 79, before `_queue.empty()`. -/
  | testEmpty
  /-- Line 79, the queue was empty, before `_queue.closed()`. -/
  | testClosed
  /-- Line 81. -/
  | pull
  /-- Line 83. -/
  | acquire (t : T)
  /-- Line 84. -/
  | submit (t : T)
  /-- Line 96. -/
  | close
  /-- Line 97. -/
  | join
  /-- The thread has ended, line 62 returns. -/
  | done
deriving DecidableEq

/-- The members (coordinator.hpp 70-74) and threads, and what has happened: the tasks accepted by the queue, the tasks that were
refused since the queue was closed, the tasks whose `execute` (76, 86) has ended. -/
structure State (T : Type) where
  /-- The tasks that each calling thread still has to queue (47-53). -/
  producers : List (List T)
  queue : List T
  closed : Bool
  pc : Pc T
  sem : Nat
  /-- The queue of the pool. -/
  pool : List T
  poolClosed : Bool
  /-- Tasks in line 86. -/
  running : List T
  /-- Workers before line 87 or 89. -/
  releasing : Nat
  /-- Workers that have ended. -/
  exited : Nat
  accepted : List T
  refused : List T
  executed : List T
deriving DecidableEq

variable {T : Type}

/-- coordinator.hpp 36-38. -/
def init (c : Config) (producers : List (List T)) : State T :=
  { producers := producers, queue := [], closed := false, pc := .idle, sem := c.size, pool := [], poolClosed := false,
    running := [], releasing := 0, exited := 0, accepted := [], refused := [], executed := [] }

/-- Workers that wait for a task (`basic_thread_pool`, coordinator.hpp 38). -/
def State.waiting (c : Config) (s : State T) : Nat := c.threads - (s.running.length + s.releasing + s.exited)

/-- One step of some thread (coordinator.hpp 36-100; each case cites its lines). -/
inductive Step (c : Config) : State T → State T → Prop
  /-- coordinator.hpp 47-53 `queue`, there is space. -/
  | push (s : State T) (before after : List (List T)) (t : T) (ts : List T) (hp : s.producers = before ++ (t :: ts) :: after)
      (hc : s.closed = false) (hs : s.queue.length < c.size) :
      Step c s { s with producers := before ++ ts :: after, queue := s.queue ++ [t], accepted := s.accepted ++ [t] }
  /-- coordinator.hpp 47-53 `queue` after `stop`; the returned status is ignored. -/
  | refuse (s : State T) (before after : List (List T)) (t : T) (ts : List T) (hp : s.producers = before ++ (t :: ts) :: after)
      (hc : s.closed = true) :
      Step c s { s with producers := before ++ ts :: after, refused := s.refused ++ [t] }
  /-- coordinator.hpp 65-67 `stop`. -/
  | stop (s : State T) (hc : s.closed = false) : Step c s { s with closed := true }
  /-- coordinator.hpp 55-59 `start`. -/
  | start (s : State T) (hp : s.pc = .idle) : Step c s { s with pc := .testEmpty }
  /-- Line 79 `not _queue.empty()` is true. -/
  | notEmpty (s : State T) (hp : s.pc = .testEmpty) (hq : s.queue ≠ []) : Step c s { s with pc := .pull }
  /-- Line 79 `not _queue.empty()` is false. -/
  | empty (s : State T) (hp : s.pc = .testEmpty) (hq : s.queue = []) : Step c s { s with pc := .testClosed }
  /-- Line 79 `not _queue.closed()` is true. -/
  | notClosed (s : State T) (hp : s.pc = .testClosed) (hc : s.closed = false) : Step c s { s with pc := .pull }
  /-- Line 79 `not _queue.closed()` is false, the loop ends. -/
  | isClosed (s : State T) (hp : s.pc = .testClosed) (hc : s.closed = true) : Step c s { s with pc := .close }
  /-- Line 81, a task is there. -/
  | pulled (s : State T) (t : T) (q : List T) (hp : s.pc = .pull) (hq : s.queue = t :: q) :
      Step c s { s with pc := .acquire t, queue := q }
  /-- Line 81, the queue is empty and closed; line 82. -/
  | pullClosed (s : State T) (hp : s.pc = .pull) (hq : s.queue = []) (hc : s.closed = true) : Step c s { s with pc := .testEmpty }
  /-- Line 83. -/
  | acquired (s : State T) (t : T) (hp : s.pc = .acquire t) (hs : 0 < s.sem) : Step c s { s with pc := .submit t, sem := s.sem - 1 }
  /-- Lines 84-92. -/
  | submitted (s : State T) (t : T) (hp : s.pc = .submit t) : Step c s { s with pc := .testEmpty, pool := s.pool ++ [t] }
  /-- Line 96. -/
  | poolClose (s : State T) (hp : s.pc = .close) : Step c s { s with pc := .join, poolClosed := true }
  /-- Line 97. -/
  | poolJoined (s : State T) (hp : s.pc = .join) (he : s.exited = c.threads) : Step c s { s with pc := .done }
  /-- A worker takes a task and begins with line 86. -/
  | take (s : State T) (t : T) (p : List T) (hp : s.pool = t :: p) (hw : 0 < s.waiting c) :
      Step c s { s with pool := p, running := s.running ++ [t] }
  /-- Line 86 `execute` returns or throws. -/
  | execute (s : State T) (before after : List T) (t : T) (hr : s.running = before ++ t :: after) :
      Step c s { s with running := before ++ after, releasing := s.releasing + 1, executed := s.executed ++ [t] }
  /-- Lines 87-90. -/
  | release (s : State T) (hr : 0 < s.releasing) : Step c s { s with releasing := s.releasing - 1, sem := s.sem + 1 }
  /-- A worker finds the closed pool empty. -/
  | exit (s : State T) (hp : s.pool = []) (hc : s.poolClosed = true) (hw : 0 < s.waiting c) :
      Step c s { s with exited := s.exited + 1 }

end MM.Coordinator
