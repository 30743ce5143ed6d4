import Verif.Model.Coordinator
import Mathlib.Logic.Relation
import Mathlib.Data.List.Count
import Mathlib.Data.List.Perm.Basic
import Mathlib.Tactic.SplitIfs

/-!
# C37: every queued task is executed exactly once

`Relation.ReflTransGen (Step c) (init c producers) s`: some interleaving of all threads leads to `s`.
-/

set_option autoImplicit false
set_option linter.unusedSectionVars false

namespace MM.Coordinator

open Relation

variable {T : Type}

/-- The task the coordinator thread holds. -/
def held : Pc T → List T
  | .acquire t => [t]
  | .submit t => [t]
  | _ => []

/-- Taken from the semaphore by the coordinator thread. -/
def taken : Pc T → Nat
  | .submit _ => 1
  | _ => 0

/-- What holds in every reachable state. -/
structure Inv (c : Config) (s : State T) : Prop where
  all : (s.executed ++ (s.running ++ (s.pool ++ (held s.pc ++ s.queue)))).Perm s.accepted
  size : s.queue.length ≤ c.size
  sem : s.sem + taken s.pc + s.pool.length + s.running.length + s.releasing = c.size
  workers : s.running.length + s.releasing + s.exited ≤ c.threads
  /-- Only after the test of line 79 the coordinator leaves the loop. -/
  closed : s.pc = .close ∨ s.pc = .join ∨ s.pc = .done → s.closed = true
  poolClosed : s.poolClosed = true ↔ s.pc = .join ∨ s.pc = .done
  exited : 0 < s.exited → s.poolClosed = true ∧ s.pool = []
  done : s.pc = .done → s.exited = c.threads

theorem inv_init (c : Config) (producers : List (List T)) : Inv c (init c producers) := by
  constructor <;> simp [init, held, taken]

theorem inv_step {c : Config} {s s' : State T} (h : Inv c s) (hs : Step c s s') : Inv c s' := by
  classical
  cases hs with
  | push before after t ts hp hc hs =>
    refine ⟨?_, ?_, h.sem, h.workers, h.closed, h.poolClosed, h.exited, h.done⟩
    · have := h.all
      simp only [← List.append_assoc] at this ⊢
      exact this.append_right [t]
    · simp only [List.length_append, List.length_singleton]
      omega
  | refuse before after t ts hp hc => exact ⟨h.all, h.size, h.sem, h.workers, h.closed, h.poolClosed, h.exited, h.done⟩
  | stop hc => exact ⟨h.all, h.size, h.sem, h.workers, fun _ => rfl, h.poolClosed, h.exited, h.done⟩
  | start hp =>
    refine ⟨by simpa [held, hp] using h.all, h.size, by simpa [taken, hp] using h.sem, h.workers, by simp, ?_, h.exited, by simp⟩
    simpa [hp] using h.poolClosed
  | notEmpty hp hq =>
    refine ⟨by simpa [held, hp] using h.all, h.size, by simpa [taken, hp] using h.sem, h.workers, by simp, ?_, h.exited, by simp⟩
    simpa [hp] using h.poolClosed
  | empty hp hq =>
    refine ⟨by simpa [held, hp] using h.all, h.size, by simpa [taken, hp] using h.sem, h.workers, by simp, ?_, h.exited, by simp⟩
    simpa [hp] using h.poolClosed
  | notClosed hp hq =>
    refine ⟨by simpa [held, hp] using h.all, h.size, by simpa [taken, hp] using h.sem, h.workers, by simp, ?_, h.exited, by simp⟩
    simpa [hp] using h.poolClosed
  | isClosed hp hc =>
    refine ⟨by simpa [held, hp] using h.all, h.size, by simpa [taken, hp] using h.sem, h.workers, fun _ => hc, ?_, h.exited, by simp⟩
    simpa [hp] using h.poolClosed
  | pulled t q hp hq =>
    refine ⟨by simpa [held, hp, hq] using h.all, ?_, by simpa [taken, hp] using h.sem, h.workers, by simp, ?_, h.exited, by simp⟩
    · have := h.size
      rw [hq] at this
      simp only [List.length_cons] at this ⊢
      omega
    · simpa [hp] using h.poolClosed
  | pullClosed hp hq hc =>
    refine ⟨by simpa [held, hp] using h.all, h.size, by simpa [taken, hp] using h.sem, h.workers, by simp, ?_, h.exited, by simp⟩
    simpa [hp] using h.poolClosed
  | acquired t hp hs =>
    refine ⟨by simpa [held, hp] using h.all, h.size, ?_, h.workers, by simp, ?_, h.exited, by simp⟩
    · have := h.sem
      simp only [hp, taken] at this ⊢
      omega
    · simpa [hp] using h.poolClosed
  | submitted t hp =>
    refine ⟨by simpa [held, hp] using h.all, h.size, ?_, h.workers, by simp, ?_, ?_, by simp⟩
    · have := h.sem
      simp only [hp, taken, List.length_append, List.length_singleton] at this ⊢
      omega
    · simpa [hp] using h.poolClosed
    · intro he
      have := h.poolClosed.1 (h.exited he).1
      simp [hp] at this
  | poolClose hp =>
    refine ⟨by simpa [held, hp] using h.all, h.size, by simpa [taken, hp] using h.sem, h.workers, fun _ => h.closed (.inl hp), by simp,
      fun he => ⟨rfl, (h.exited he).2⟩, by simp⟩
  | poolJoined hp he =>
    refine ⟨by simpa [held, hp] using h.all, h.size, by simpa [taken, hp] using h.sem, h.workers, fun _ => h.closed (.inr (.inl hp)), ?_,
      h.exited, fun _ => he⟩
    simpa [hp] using h.poolClosed
  | take t p hp hw =>
    refine ⟨?_, h.size, ?_, ?_, h.closed, h.poolClosed, ?_, h.done⟩
    · have := h.all
      rw [hp] at this
      simpa using this
    · have := h.sem
      simp only [hp, List.length_cons, List.length_append, List.length_nil] at this ⊢
      omega
    · simp only [State.waiting] at hw
      simp only [List.length_append, List.length_singleton]
      omega
    · intro he
      have := (h.exited he).2
      rw [hp] at this
      simp at this
  | execute before after t hr =>
    refine ⟨?_, h.size, ?_, ?_, h.closed, h.poolClosed, h.exited, h.done⟩
    · have := h.all
      rw [hr] at this
      refine List.Perm.trans ?_ this
      rw [List.perm_iff_count]
      intro a
      simp only [List.count_append, List.count_cons, List.count_nil]
      omega
    · have := h.sem
      simp only [hr, List.length_cons, List.length_append] at this ⊢
      omega
    · have := h.workers
      simp only [hr, List.length_cons, List.length_append] at this ⊢
      omega
  | release hr =>
    refine ⟨h.all, h.size, ?_, ?_, h.closed, h.poolClosed, h.exited, h.done⟩
    · have := h.sem
      simp only
      omega
    · have := h.workers
      simp only
      omega
  | exit hp hc hw =>
    refine ⟨h.all, h.size, h.sem, ?_, h.closed, h.poolClosed, fun _ => ⟨hc, hp⟩, ?_⟩
    · simp only [State.waiting] at hw
      simp only
      omega
    · intro hd
      have := h.done hd
      simp only [State.waiting] at hw
      omega

theorem inv {c : Config} {producers : List (List T)} {s : State T} (h : ReflTransGen (Step c) (init c producers) s) : Inv c s := by
  induction h with
  | refl => exact inv_init c producers
  | tail _ hs ih => exact inv_step ih hs

/-- **C37**, exactly once: whatever the schedule, the executed tasks together with the running, waiting and queued ones are the
accepted ones, each as often as it was accepted. -/
theorem exactly_once {c : Config} {producers : List (List T)} {s : State T} (h : ReflTransGen (Step c) (init c producers) s) :
    (s.executed ++ (s.running ++ (s.pool ++ (held s.pc ++ s.queue)))).Perm s.accepted := (inv h).all

/-- **C37**, in flight: at most `threads` tasks are executed at the same time, at most `size` were taken from the queue and are
not done, at most `size` wait in the queue. -/
theorem in_flight {c : Config} {producers : List (List T)} {s : State T} (h : ReflTransGen (Step c) (init c producers) s) :
    s.running.length ≤ c.threads ∧ s.running.length + s.pool.length ≤ c.size ∧ s.queue.length ≤ c.size := by
  have hi := inv h
  have h1 := hi.workers
  have h2 := hi.sem
  exact ⟨by omega, by omega, hi.size⟩

/-! ### Accepted or refused -/

/-- The tasks are accepted, refused or still to be queued; refused only after `stop`. -/
theorem accepted_or_refused {c : Config} {producers : List (List T)} {s : State T} (h : ReflTransGen (Step c) (init c producers) s) :
    (s.accepted ++ (s.refused ++ s.producers.flatten)).Perm producers.flatten ∧ (s.closed = false → s.refused = []) := by
  classical
  induction h with
  | refl => simp [init]
  | tail _ hs ih =>
    obtain ⟨h1, h2⟩ := ih
    cases hs with
    | push before after t ts hp hc hs =>
      refine ⟨?_, h2⟩
      rw [hp] at h1
      refine List.Perm.trans ?_ h1
      rw [List.perm_iff_count]
      intro a
      simp only [List.flatten_append, List.flatten_cons, List.count_append, List.count_cons, List.count_nil]
      omega
    | refuse before after t ts hp hc =>
      refine ⟨?_, fun h => by rw [hc] at h; simp at h⟩
      rw [hp] at h1
      refine List.Perm.trans ?_ h1
      rw [List.perm_iff_count]
      intro a
      simp only [List.flatten_append, List.flatten_cons, List.count_append, List.count_cons, List.count_nil]
      omega
    | stop hc => exact ⟨h1, by simp⟩
    | _ => exact ⟨h1, h2⟩

/-! ### No deadlock -/

/-- The step is not a call of `stop`. -/
def Inner (c : Config) (s s' : State T) : Prop := Step c s s' ∧ s'.closed = s.closed

theorem exists_cons_of_flatten {l : List (List T)} (h : l.flatten ≠ []) : ∃ before t ts after, l = before ++ (t :: ts) :: after := by
  induction l with
  | nil => simp at h
  | cons x l ih =>
    cases x with
    | cons t ts => exact ⟨[], t, ts, l, rfl⟩
    | nil =>
      obtain ⟨b, t, ts, a, hl⟩ := ih (by simpa using h)
      exact ⟨[] :: b, t, ts, a, by rw [hl]; rfl⟩

/-- **C37**, no deadlock: as long as not everything is done some thread can continue, without a further call of `stop`.
Before `stop`, everything is done when all tasks are queued and executed and the coordinator waits for the next one; after
`stop`, when all calls of `queue` have returned and `join` returns. -/
theorem no_deadlock {c : Config} (hc : 1 ≤ c.threads) (hz : 1 ≤ c.size) {producers : List (List T)} {s : State T}
    (h : ReflTransGen (Step c) (init c producers) s) (hn : ∀ s', ¬ Inner c s s') :
    s.producers.flatten = [] ∧ s.running = [] ∧ s.pool = [] ∧
      (s.closed = false → s.pc = .pull ∧ s.queue = [] ∧ s.executed.Perm s.accepted) ∧
      (s.closed = true → s.pc = .done) := by
  have hi := inv h
  have hrun : s.running = [] := by
    cases hr : s.running with
    | nil => rfl
    | cons t l => exact absurd ⟨.execute s [] l t hr, rfl⟩ (hn _)
  have hrel : s.releasing = 0 := by
    by_contra h0
    exact hn _ ⟨.release s (by omega), rfl⟩
  have hpool : s.pool = [] := by
    cases hp : s.pool with
    | nil => rfl
    | cons t p =>
      have he : s.exited = 0 := by
        by_contra h0
        have := (hi.exited (by omega)).2
        rw [hp] at this
        simp at this
      exact absurd ⟨.take s t p hp (by simp only [State.waiting, hrun, hrel, he, List.length_nil]; omega), rfl⟩ (hn _)
  have hprod : s.producers.flatten = [] := by
    by_contra hne
    obtain ⟨b, t, ts, a, hl⟩ := exists_cons_of_flatten hne
    cases hcl : s.closed with
    | true => exact hn _ ⟨.refuse s b a t ts hl hcl, rfl⟩
    | false =>
      by_cases hq : s.queue.length < c.size
      · exact hn _ ⟨.push s b a t ts hl hcl hq, rfl⟩
      · -- the queue is full, the coordinator can continue
        have hqn : s.queue ≠ [] := by
          intro h0
          rw [h0] at hq
          simp only [List.length_nil] at hq
          omega
        cases hpc : s.pc with
        | idle => exact hn _ ⟨.start s hpc, rfl⟩
        | testEmpty => exact hn _ ⟨.notEmpty s hpc hqn, rfl⟩
        | testClosed => exact hn _ ⟨.notClosed s hpc hcl, rfl⟩
        | pull =>
          obtain ⟨x, q, hx⟩ := List.exists_cons_of_ne_nil hqn
          exact hn _ ⟨.pulled s x q hpc hx, rfl⟩
        | acquire x =>
          have := hi.sem
          simp only [hpc, taken, hpool, hrun, hrel, List.length_nil] at this
          exact hn _ ⟨.acquired s x hpc (by omega), rfl⟩
        | submit x => exact hn _ ⟨.submitted s x hpc, rfl⟩
        | close => have := hi.closed (.inl hpc); rw [hcl] at this; simp at this
        | join => have := hi.closed (.inr (.inl hpc)); rw [hcl] at this; simp at this
        | done => have := hi.closed (.inr (.inr hpc)); rw [hcl] at this; simp at this
  refine ⟨hprod, hrun, hpool, ?_, ?_⟩
  · intro hcl
    have hpc : s.pc = .pull ∧ s.queue = [] := by
      cases hpc : s.pc with
      | idle => exact absurd ⟨.start s hpc, rfl⟩ (hn _)
      | testEmpty =>
        by_cases hq : s.queue = []
        · exact absurd ⟨.empty s hpc hq, rfl⟩ (hn _)
        · exact absurd ⟨.notEmpty s hpc hq, rfl⟩ (hn _)
      | testClosed => exact absurd ⟨.notClosed s hpc hcl, rfl⟩ (hn _)
      | pull =>
        cases hq : s.queue with
        | nil => exact ⟨rfl, rfl⟩
        | cons x q => exact absurd ⟨.pulled s x q hpc hq, rfl⟩ (hn _)
      | acquire x =>
        have := hi.sem
        simp only [hpc, taken, hpool, hrun, hrel, List.length_nil] at this
        exact absurd ⟨.acquired s x hpc (by omega), rfl⟩ (hn _)
      | submit x => exact absurd ⟨.submitted s x hpc, rfl⟩ (hn _)
      | close => have := hi.closed (.inl hpc); rw [hcl] at this; simp at this
      | join => have := hi.closed (.inr (.inl hpc)); rw [hcl] at this; simp at this
      | done => have := hi.closed (.inr (.inr hpc)); rw [hcl] at this; simp at this
    refine ⟨hpc.1, hpc.2, ?_⟩
    have := hi.all
    simpa [hrun, hpool, hpc.1, hpc.2, held] using this
  · intro hcl
    cases hpc : s.pc with
    | idle => exact absurd ⟨.start s hpc, rfl⟩ (hn _)
    | testEmpty =>
      by_cases hq : s.queue = []
      · exact absurd ⟨.empty s hpc hq, rfl⟩ (hn _)
      · exact absurd ⟨.notEmpty s hpc hq, rfl⟩ (hn _)
    | testClosed => exact absurd ⟨.isClosed s hpc hcl, rfl⟩ (hn _)
    | pull =>
      cases hq : s.queue with
      | nil => exact absurd ⟨.pullClosed s hpc hq hcl, rfl⟩ (hn _)
      | cons x q => exact absurd ⟨.pulled s x q hpc hq, rfl⟩ (hn _)
    | acquire x =>
      have := hi.sem
      simp only [hpc, taken, hpool, hrun, hrel, List.length_nil] at this
      exact absurd ⟨.acquired s x hpc (by omega), rfl⟩ (hn _)
    | submit x => exact absurd ⟨.submitted s x hpc, rfl⟩ (hn _)
    | close => exact absurd ⟨.poolClose s hpc, rfl⟩ (hn _)
    | join =>
      by_cases he : s.exited = c.threads
      · exact absurd ⟨.poolJoined s hpc he, rfl⟩ (hn _)
      · have := hi.workers
        exact absurd ⟨.exit s hpool (hi.poolClosed.2 (.inl hpc)) (by simp only [State.waiting, hrun, hrel, List.length_nil]; omega), rfl⟩ (hn _)
    | done => rfl

/-! ### Every schedule ends -/

/-- How far the coordinator thread is from its end. -/
def rank (s : State T) : Nat :=
  match s.pc with
  | .idle => 10
  | .testEmpty => if s.closed = true ∧ s.queue = [] then 5 else 8
  | .testClosed => if s.closed = true ∧ s.queue = [] then 4 else 7
  | .pull => 6
  | .acquire _ => 13
  | .submit _ => 12
  | .close => 3
  | .join => 2
  | .done => 1

/-- An upper bound of the number of remaining steps. -/
def measure (c : Config) (s : State T) : Nat :=
  9 * s.producers.flatten.length + 8 * s.queue.length + (if s.closed then 0 else 1) + rank s + 3 * s.pool.length +
    2 * s.running.length + s.releasing + (c.threads - s.exited)

theorem measure_step {c : Config} {s s' : State T} (hs : Step c s s') : measure c s' < measure c s := by
  cases hs with
  | push before after t ts hp hc hs =>
    simp only [measure, rank, hp, hc, List.flatten_append, List.flatten_cons, List.length_append, List.length_cons, List.length_nil,
      Bool.false_eq_true, false_and, if_false]
    omega
  | refuse before after t ts hp hc =>
    simp only [measure, rank, hp, hc, List.flatten_append, List.flatten_cons, List.length_append, List.length_cons, List.length_nil]
    omega
  | stop hc =>
    simp only [measure, rank, hc, if_true, Bool.false_eq_true, false_and, if_false, true_and]
    cases s.pc <;> simp only <;> try omega
    · split <;> omega
    · split <;> omega
  | start hp =>
    simp only [measure, rank, hp]
    split_ifs <;> omega
  | notEmpty hp hq => simp only [measure, rank, hp, hq, and_false, if_false]; omega
  | empty hp hq => simp only [measure, rank, hp, hq, and_true]; split <;> simp_all
  | notClosed hp hc => simp only [measure, rank, hp, hc, Bool.false_eq_true, false_and, if_false]; omega
  | isClosed hp hc => simp only [measure, rank, hp, hc, true_and]; split_ifs <;> omega
  | pulled t q hp hq => simp only [measure, rank, hp, hq, List.length_cons]; omega
  | pullClosed hp hq hc => simp only [measure, rank, hp, hq, hc, and_self, if_true]; omega
  | acquired t hp hs => simp only [measure, rank, hp]; omega
  | submitted t hp =>
    simp only [measure, rank, hp, List.length_append, List.length_cons, List.length_nil]
    split_ifs <;> omega
  | poolClose hp => simp only [measure, rank, hp]; omega
  | poolJoined hp he => simp only [measure, rank, hp]; omega
  | take t p hp hw =>
    simp only [measure, rank, hp, List.length_append, List.length_cons, List.length_nil]
    omega
  | execute before after t hr =>
    simp only [measure, rank, hr, List.length_append, List.length_cons]
    omega
  | release hr => simp only [measure, rank]; omega
  | exit hp hc hw =>
    simp only [State.waiting] at hw
    simp only [measure, rank]
    omega

/-- A schedule of `n` steps. -/
inductive Run (c : Config) : Nat → State T → State T → Prop
  | nil (s : State T) : Run c 0 s s
  | cons {n : Nat} {s t u : State T} (h : Step c s t) (hs : Run c n t u) : Run c (n + 1) s u

/-- **C37**, no livelock: no schedule is longer than this. -/
theorem schedules_end {c : Config} {producers : List (List T)} {n : Nat} {s : State T} (h : Run c n (init c producers) s) :
    n ≤ 9 * producers.flatten.length + c.threads + 11 := by
  have : ∀ {n : Nat} {s t : State T}, Run c n s t → n + measure c t ≤ measure c s := by
    intro n s t h
    induction h with
    | nil s => omega
    | cons hs _ ih => have := measure_step hs; omega
  have := this h
  simp only [measure, init, rank, List.length_nil, Bool.false_eq_true, if_false] at this
  omega

/-! ### After `join` -/

/-- A step that accepts no task while the coordinator thread is between the two tests of line 79. -/
def Quiet (c : Config) (s s' : State T) : Prop := Step c s s' ∧ (s.pc = .testClosed → s'.accepted = s.accepted)

/-- **C37**, after `join`: if no task is accepted just between the two tests `_queue.empty()` and `_queue.closed()` of the
coordinator thread, all accepted tasks have been executed when `join` returns.  Missing from the full property: tasks accepted
in between (`join_fails`). -/
theorem join_partial {c : Config} (hc : 1 ≤ c.threads) {producers : List (List T)} {s : State T} (h : ReflTransGen (Quiet c) (init c producers) s)
    (hd : s.pc = .done) : s.executed.Perm s.accepted := by
  have hr : ReflTransGen (Step c) (init c producers) s := ReflTransGen.mono (fun _ _ h => h.1) _ _ h
  have hi := inv hr
  have hq : (s.pc = .testClosed ∨ s.pc = .close ∨ s.pc = .join ∨ s.pc = .done → s.queue = []) := by
    clear hd hr hi
    induction h with
    | refl => simp [init]
    | tail hpre hstep ih =>
      have hb := inv (ReflTransGen.mono (fun _ _ h => h.1) _ _ hpre)
      obtain ⟨hs, hquiet⟩ := hstep
      cases hs with
      | push before after t ts hp hc hs =>
        intro hpc
        rcases hpc with hpc | hpc
        · have := hquiet hpc
          simp at this
        · have := hb.closed hpc
          rw [hc] at this
          simp at this
      | isClosed hp hc => intro _; exact ih (.inl hp)
      | empty hp hq => intro _; exact hq
      | refuse before after t ts hp hc => exact ih
      | stop hc => exact ih
      | start hp => intro h; simp at h
      | notEmpty hp hq => intro h; simp at h
      | notClosed hp hc => intro h; simp at h
      | pulled t q hp hq => intro h; simp at h
      | pullClosed hp hq hc => intro h; simp at h
      | acquired t hp hs => intro h; simp at h
      | submitted t hp => intro h; simp at h
      | poolClose hp => intro _; exact ih (.inr (.inl hp))
      | poolJoined hp he => intro _; exact ih (.inr (.inr (.inl hp)))
      | take t p hp hw => exact ih
      | execute before after t hr => exact ih
      | release hr => exact ih
      | exit hp hc hw => exact ih
  have hq := hq (.inr (.inr (.inr hd)))
  have hw := hi.workers
  have he := hi.done hd
  have hrun : s.running = [] := by
    cases hrn : s.running with
    | nil => rfl
    | cons t l => rw [hrn] at hw; simp only [List.length_cons] at hw; omega
  have hpool : s.pool = [] := (hi.exited (by omega)).2
  simpa [hrun, hpool, hd, hq, held] using hi.all

/-- Whatever the schedule, when `join` returns each accepted task was executed once or is one of at most `size` tasks left in the
queue. -/
theorem join_rest {c : Config} (hc : 1 ≤ c.threads) {producers : List (List T)} {s : State T}
    (h : ReflTransGen (Step c) (init c producers) s) (hd : s.pc = .done) :
    (s.executed ++ s.queue).Perm s.accepted ∧ s.queue.length ≤ c.size := by
  have hi := inv h
  have hw := hi.workers
  have he := hi.done hd
  have hrun : s.running = [] := by
    cases hrn : s.running with
    | nil => rfl
    | cons t l => rw [hrn] at hw; simp only [List.length_cons] at hw; omega
  have hpool : s.pool = [] := (hi.exited (by omega)).2
  exact ⟨by simpa [hrun, hpool, hd, held] using hi.all, hi.size⟩

/-! ### Cases -/

/-- One worker, one thread that queues one task; it is executed before `join` returns. -/
example : ReflTransGen (Quiet (Config.ofThreads 1)) (init (Config.ofThreads 1) [[7]])
    { producers := [[]], queue := [], closed := true, pc := .done, sem := 1, pool := [], poolClosed := true, running := [],
      releasing := 0, exited := 1, accepted := [7], refused := [], executed := [7] } := by
  refine .head ⟨.start _ rfl, by simp [init]⟩ (.head ⟨.push _ [] [] 7 [] rfl rfl (by decide), by simp [init]⟩
    (.head ⟨.notEmpty _ rfl (by decide), by simp⟩ (.head ⟨.pulled _ 7 [] rfl rfl, by simp⟩ (.head ⟨.acquired _ 7 rfl (by decide), by simp⟩
    (.head ⟨.submitted _ 7 rfl, by simp⟩ (.head ⟨.empty _ rfl rfl, by simp⟩ (.head ⟨.stop _ rfl, by simp⟩
    (.head ⟨.isClosed _ rfl rfl, by simp⟩ (.head ⟨.poolClose _ rfl, by simp⟩ (.head ⟨.take _ 7 [] rfl (by decide), by simp⟩
    (.head ⟨.execute _ [] [] 7 rfl, by simp⟩ (.head ⟨.release _ (by decide), by simp⟩
    (.head ⟨.exit _ rfl rfl (by decide), by simp⟩ (.head ⟨.poolJoined _ rfl rfl, by simp⟩ ?_))))))))))))))
  exact .refl

/-- **C37 fails**: the coordinator thread finds the queue empty; then a task is accepted and `stop` is called; then the
coordinator thread finds the queue closed.  The accepted task is never executed, `join` returns. -/
theorem join_fails : ReflTransGen (Step (Config.ofThreads 1)) (init (Config.ofThreads 1) [[7]])
    { producers := [[]], queue := [7], closed := true, pc := .done, sem := 1, pool := [], poolClosed := true, running := [],
      releasing := 0, exited := 1, accepted := [7], refused := [], executed := [] } := by
  refine .head (.start _ rfl) (.head (.empty _ rfl rfl) (.head (.push _ [] [] 7 [] rfl rfl (by decide)) (.head (.stop _ rfl)
    (.head (.isClosed _ rfl rfl) (.head (.poolClose _ rfl) (.head (.exit _ rfl rfl (by decide)) (.head (.poolJoined _ rfl rfl) ?_)))))))
  exact .refl

/-- A thread that queues after `stop` is not told that its task is dropped. -/
example : ReflTransGen (Step (Config.ofThreads 2)) (init (Config.ofThreads 2) [[7], [8]])
    { init (Config.ofThreads 2) [[], []] with closed := true, queue := [8], accepted := [8], refused := [7] } := by
  refine .head (.push _ [[7]] [] 8 [] rfl rfl (by decide)) (.head (.stop _ rfl) (.head (.refuse _ [] [[]] 7 [] rfl rfl) ?_))
  exact .refl

/-- **C37**, sizes: with `threads` threads and no other size given at most `2 * threads` tasks wait and at most as many are taken and not
done (with one thread one task); every such coordinator with a thread can go on (`no_deadlock`). -/
theorem default_size {threads : Nat} {producers : List (List T)} {s : State T}
    (h : ReflTransGen (Step (Config.ofThreads threads)) (init (Config.ofThreads threads) producers) s) :
    s.running.length ≤ threads ∧ s.queue.length ≤ 2 * threads ∧ s.running.length + s.pool.length ≤ 2 * threads ∧
      (threads = 1 → s.queue.length ≤ 1) ∧ threads ≤ (Config.ofThreads threads).size := by
  obtain ⟨h1, h2, h3⟩ := in_flight h
  have hs : (Config.ofThreads threads).size ≤ 2 * threads ∧ (threads = 1 → (Config.ofThreads threads).size = 1) ∧
      threads ≤ (Config.ofThreads threads).size := by
    simp only [Config.ofThreads]
    split <;> omega
  have ht : (Config.ofThreads threads).threads = threads := rfl
  rw [ht] at h1
  refine ⟨h1, by omega, by omega, fun h => by have := hs.2.1 h; omega, hs.2.2⟩

example : (Config.ofThreads 3).size = 6 ∧ (Config.ofThreads 1).size = 1 := by decide

end MM.Coordinator
