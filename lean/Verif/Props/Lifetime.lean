import Verif.Model.Lifetime
import Verif.Props.Coordinator

/-!
# C78: every track read gives one row, and nothing is used after its destruction
-/

set_option autoImplicit false
set_option linter.unusedSectionVars false

namespace MM.Lifetime

open Relation
open MM.Coordinator (Config State Step)

variable {T : Type} {co ce : Config} {fails : T → Bool} {tracks : List T}

/-! ### Steps of one coordinator -/

theorem own_accepted {c : Config} {s s' : State T} (h : Own c s s') : s'.accepted = s.accepted ∧ s'.refused = s.refused := by
  obtain ⟨h, hp, hc, hi⟩ := h
  cases h with
  | push before after t ts hp' _ _ => rw [hp'] at hp; simp at hp
  | refuse before after t ts hp' _ => rw [hp'] at hp; simp at hp
  | _ => exact ⟨rfl, rfl⟩

theorem own_producers {c : Config} {s s' : State T} (h : Own c s s') (p : List (List T)) :
    Step c { s with producers := p } { s' with producers := p } := by
  obtain ⟨h, hp, hc, hi⟩ := h
  cases h with
  | push before after t ts hp' _ _ => rw [hp'] at hp; simp at hp
  | refuse before after t ts hp' _ => rw [hp'] at hp; simp at hp
  | stop hc' => simp [hc'] at hc
  | start hp' => exact absurd hp' hi
  | notEmpty h1 h2 => exact .notEmpty { s with producers := p } h1 h2
  | empty h1 h2 => exact .empty { s with producers := p } h1 h2
  | notClosed h1 h2 => exact .notClosed { s with producers := p } h1 h2
  | isClosed h1 h2 => exact .isClosed { s with producers := p } h1 h2
  | pulled t q h1 h2 => exact .pulled { s with producers := p } t q h1 h2
  | pullClosed h1 h2 h3 => exact .pullClosed { s with producers := p } h1 h2 h3
  | acquired t h1 h2 => exact .acquired { s with producers := p } t h1 h2
  | submitted t h1 => exact .submitted { s with producers := p } t h1
  | poolClose h1 => exact .poolClose { s with producers := p } h1
  | poolJoined h1 h2 => exact .poolJoined { s with producers := p } h1 h2
  | take t q h1 h2 => exact .take { s with producers := p } t q h1 h2
  | execute b a t h1 => exact .execute { s with producers := p } b a t h1
  | release h1 => exact .release { s with producers := p } h1
  | exit h1 h2 h3 => exact .exit { s with producers := p } h1 h2 h3

theorem own_executed {c : Config} {s s' : State T} (h : Own c s s') :
    s'.executed = s.executed ∨ ∃ t b a, s.running = b ++ t :: a ∧ s'.executed = s.executed ++ [t] := by
  obtain ⟨h, hp, hc, hi⟩ := h
  cases h with
  | execute b a t h1 => exact .inr ⟨t, b, a, h1, rfl⟩
  | _ => exact .inl rfl

theorem own_not_done {c : Config} {s s' : State T} (h : Own c s s') : s.pc = .done → s'.pc = .done := by
  obtain ⟨h, hp, hc, hi⟩ := h
  intro hd
  cases h <;> simp_all

theorem own_not_idle {c : Config} {s s' : State T} (h : Own c s s') : s'.pc ≠ .idle := by
  obtain ⟨h, hp, hc, hi⟩ := h
  cases h <;> simp_all

theorem step_read {c : Config} {s s' : State T} (h : Step c s s') (hp : s'.producers ≠ s.producers) :
    s'.pc = s.pc ∧ s'.closed = s.closed ∧ s'.executed = s.executed ∧ (s.closed = false → s'.refused = s.refused) := by
  cases h with
  | push => exact ⟨rfl, rfl, rfl, fun _ => rfl⟩
  | refuse _ _ _ _ _ hc => exact ⟨rfl, rfl, rfl, fun h => by rw [hc] at h; simp at h⟩
  | _ => exact absurd rfl hp

/-- A coordinator with the calls of `queue` so far can be seen as one whose callers were known from the start. -/
def Known (c : Config) (s : State T) : Prop :=
  s.refused = [] → ∀ l, ReflTransGen (Step c) (Coordinator.init c [s.accepted ++ l]) { s with producers := [l] }

theorem known_own {c : Config} {s s' : State T} (hk : Known c s) (h : Own c s s') : Known c s' := by
  intro hr l
  have hi : Coordinator.init c [s'.accepted ++ l] = Coordinator.init c [s.accepted ++ l] := by rw [(own_accepted h).1]
  rw [hi]
  exact (hk ((own_accepted h).2 ▸ hr) l).tail (own_producers h [l])

theorem known_push {c : Config} {s : State T} (hk : Known c s) (hc : s.closed = false) (hq : s.queue.length < c.size) (t : T)
    (p : List (List T)) : Known c { s with producers := p, queue := s.queue ++ [t], accepted := s.accepted ++ [t] } := by
  intro hr l
  have := hk hr (t :: l)
  simp only [List.append_assoc, List.singleton_append]
  exact this.tail (Step.push { s with producers := [t :: l] } [] [] t l rfl hc hq)

theorem known_close {c : Config} {s : State T} (hk : Known c s) : Known c { s with closed := true } := by
  intro hr l
  have := hk hr l
  by_cases hc : s.closed = false
  · exact this.tail (Step.stop { s with producers := [l] } hc)
  · have : ({ s with closed := true } : State T) = s := by
      rcases s with ⟨a, b, c, _⟩
      simp_all
    rw [this]
    exact hk hr l

theorem known_init {c : Config} (p : List (List T)) : Known c { Coordinator.init c p with pc := .testEmpty } := by
  intro _ l
  exact .tail .refl (Step.start (Coordinator.init c [[] ++ l]) rfl)

/-! ### Invariant -/

/-- What holds in every reachable state. -/
structure Inv (co ce : Config) (fails : T → Bool) (tracks : List T) (s : Sys T) : Prop where
  outer : Known co s.outer
  exporter : Known ce s.exporter
  refused : s.outer.refused = [] ∧ s.exporter.refused = []
  notIdle : s.outer.pc ≠ .idle ∧ s.exporter.pc ≠ .idle
  reading : s.main = .reading → s.threw = none ∧ s.outer.closed = false
  joining : s.main = .joining → s.threw = none ∧ s.outer.closed = true
  done : s.threw = none → s.main ≠ .reading → s.main ≠ .joining → s.outer.pc = .done
  closed : s.exporter.closed = true ↔ s.main = .exporterJoin ∨ s.main.alive = false
  exporterDone : s.main.alive = false → s.exporter.pc = .done
  baseClosed : s.main = .baseJoin ∨ s.main = .gone → s.outer.closed = true
  tracks : s.outer.accepted ++ s.outer.producers.flatten = tracks
  allRead : s.threw = none → s.main ≠ .reading → s.outer.producers.flatten = []
  threw : ∀ l, s.threw = some l → s.outer.accepted = l
  rows : s.ub = false → s.exporter.accepted ++ s.lost = s.outer.executed.filter (fun t => !fails t)
  lost : s.exporter.closed = false → s.lost = []
  safe : s.threw = none → s.ub = false ∧ s.lost = []
  empty : s.threw = some [] → s.ub = false ∧ s.lost = []
  single : ∃ l, s.outer.producers = [l]

theorem known_inv {c : Config} {s : State T} (hk : Known c s) (hr : s.refused = []) : Coordinator.Inv c s := by
  have := Coordinator.inv (hk hr [])
  exact ⟨this.all, this.size, this.sem, this.workers, this.closed, this.poolClosed, this.exited, this.done⟩

theorem done_not_running {c : Config} {s : State T} (h : Coordinator.Inv c s) (hd : s.pc = .done) : s.running = [] := by
  have h1 := h.workers
  have h2 := h.done hd
  cases hr : s.running with
  | nil => rfl
  | cons t l => rw [hr] at h1; simp only [List.length_cons] at h1; omega

theorem accepted_nil_not_running {c : Config} {s : State T} (h : Coordinator.Inv c s) (hd : s.accepted = []) : s.running = [] := by
  have h1 := h.all
  rw [hd] at h1
  have := h1.eq_nil
  simp at this
  tauto

theorem inv_init : Inv co ce fails tracks (init co ce tracks) := by
  constructor <;> try simp [init, Coordinator.init, Main.alive]
  · exact known_init [tracks]
  · exact known_init []

theorem read_accepts {c : Config} {s s' : State T} {l : List T} (h : Step c s s') (hp : s'.producers ≠ s.producers) (hl : s.producers = [l])
    (hc : s.closed = false) : ∃ t l', l = t :: l' ∧ s.queue.length < c.size ∧
      s' = { s with producers := [l'], queue := s.queue ++ [t], accepted := s.accepted ++ [t] } := by
  cases h with
  | push before after t ts hp' _ hq =>
    rw [hl] at hp'
    cases before with
    | nil =>
      simp only [List.nil_append, List.cons.injEq] at hp'
      obtain ⟨h1, h2⟩ := hp'
      exact ⟨t, ts, h1, hq, by rw [← h2]; rfl⟩
    | cons b bs => simp at hp'
  | refuse _ _ _ _ _ hc' => rw [hc] at hc'; simp at hc'
  | _ => exact absurd rfl hp

theorem inv_step {s s' : Sys T} (h : Inv co ce fails tracks s) (hs : SysStep co ce fails s s') : Inv co ce fails tracks s' := by
  have io := known_inv h.outer h.refused.1
  have ie := known_inv h.exporter h.refused.2
  -- the parts that follow from a step of the outer coordinator by itself
  have own : ∀ o, Own co s.outer o → Known co o ∧ o.refused = [] ∧ o.pc ≠ .idle ∧ o.closed = s.outer.closed ∧
      (s.outer.pc = .done → o.pc = .done) ∧ o.accepted = s.outer.accepted ∧ o.producers = s.outer.producers := by
    intro o ho
    exact ⟨known_own h.outer ho, by rw [(own_accepted ho).2]; exact h.refused.1, own_not_idle ho, ho.2.2.1, own_not_done ho,
      (own_accepted ho).1, ho.2.1⟩
  have exec : ∀ o t, Own co s.outer o → o.executed = s.outer.executed ++ [t] → s.outer.running ≠ [] := by
    intro o t ho he
    rcases own_executed ho with h' | ⟨t', b, a, h1, -⟩
    · rw [h'] at he; simp at he
    · rw [h1]; simp
  have notDone : ∀ o t, Own co s.outer o → o.executed = s.outer.executed ++ [t] → s.outer.pc ≠ .done ∧ s.outer.accepted ≠ [] := by
    intro o t ho he
    exact ⟨fun hd => exec o t ho he (done_not_running io hd), fun hd => exec o t ho he (accepted_nil_not_running io hd)⟩
  cases hs with
  | outer o ho he =>
    obtain ⟨h1, h2, h3, h4, h5, h6, h7⟩ := own o ho
    exact ⟨h1, h.exporter, ⟨h2, h.refused.2⟩, ⟨h3, h.notIdle.2⟩, fun hm => ⟨(h.reading hm).1, h4 ▸ (h.reading hm).2⟩,
      fun hm => ⟨(h.joining hm).1, h4 ▸ (h.joining hm).2⟩, fun a b c => h5 (h.done a b c), h.closed, h.exporterDone,
      fun hm => h4 ▸ h.baseClosed hm, by simp only [h6, h7]; exact h.tracks, fun a b => by simp only [h7]; exact h.allRead a b,
      fun l hl => by simp only [h6]; exact h.threw l hl, fun hu => by simp only [he]; exact h.rows hu, h.lost, h.safe, h.empty,
      by simp only [h7]; exact h.single⟩
  | exporter e he =>
    have h4 : e.closed = s.exporter.closed := he.2.2.1
    exact ⟨h.outer, known_own h.exporter he, ⟨h.refused.1, by simp only [(own_accepted he).2]; exact h.refused.2⟩,
      ⟨h.notIdle.1, own_not_idle he⟩, h.reading, h.joining, h.done, by simp only [h4]; exact h.closed,
      fun hm => own_not_done he (h.exporterDone hm), h.baseClosed, h.tracks, h.allRead, h.threw,
      fun hu => by simp only [(own_accepted he).1]; exact h.rows hu, fun hc => h.lost (h4 ▸ hc), h.safe, h.empty, h.single⟩
  | write o t ho he hf ha hc hq =>
    obtain ⟨h1, h2, h3, h4, h5, h6, h7⟩ := own o ho
    exact ⟨h1, known_push h.exporter hc hq t s.exporter.producers, ⟨h2, h.refused.2⟩, ⟨h3, h.notIdle.2⟩,
      fun hm => ⟨(h.reading hm).1, h4 ▸ (h.reading hm).2⟩,
      fun hm => ⟨(h.joining hm).1, h4 ▸ (h.joining hm).2⟩, fun a b c => h5 (h.done a b c), h.closed, h.exporterDone,
      fun hm => h4 ▸ h.baseClosed hm, by simp only [h6, h7]; exact h.tracks, fun a b => by simp only [h7]; exact h.allRead a b,
      fun l hl => by simp only [h6]; exact h.threw l hl,
      fun hu => by
        have := h.rows hu
        have hl := h.lost hc
        simp only [accept, he, List.filter_append]
        rw [← this, hl]
        simp [hf], h.lost, h.safe, h.empty, by simp only [h7]; exact h.single⟩
  | refuse o t ho he hf ha hc =>
    obtain ⟨h1, h2, h3, h4, h5, h6, h7⟩ := own o ho
    have hj : s.main = .exporterJoin := by
      rcases h.closed.1 hc with h' | h'
      · exact h'
      · rw [ha] at h'; simp at h'
    have hno : s.threw ≠ none := fun hn =>
      (notDone o t ho he).1 (h.done hn (by rw [hj]; simp) (by rw [hj]; simp))
    exact ⟨h1, h.exporter, ⟨h2, h.refused.2⟩, ⟨h3, h.notIdle.2⟩, fun hm => ⟨(h.reading hm).1, h4 ▸ (h.reading hm).2⟩,
      fun hm => ⟨(h.joining hm).1, h4 ▸ (h.joining hm).2⟩, fun a b c => h5 (h.done a b c), h.closed, h.exporterDone,
      fun hm => h4 ▸ h.baseClosed hm, by simp only [h6, h7]; exact h.tracks, fun a b => by simp only [h7]; exact h.allRead a b,
      fun l hl => by simp only [h6]; exact h.threw l hl,
      fun hu => by
        have := h.rows hu
        simp only [he, List.filter_append, ← List.append_assoc]
        rw [this]
        simp [hf],
      fun hc' => by simp only [hc] at hc'; simp at hc',
      fun hn => absurd hn hno,
      fun hn => absurd (h.threw [] hn) (notDone o t ho he).2, by simp only [h7]; exact h.single⟩
  | fail o t ho he hf ha =>
    obtain ⟨h1, h2, h3, h4, h5, h6, h7⟩ := own o ho
    exact ⟨h1, h.exporter, ⟨h2, h.refused.2⟩, ⟨h3, h.notIdle.2⟩, fun hm => ⟨(h.reading hm).1, h4 ▸ (h.reading hm).2⟩,
      fun hm => ⟨(h.joining hm).1, h4 ▸ (h.joining hm).2⟩, fun a b c => h5 (h.done a b c), h.closed, h.exporterDone,
      fun hm => h4 ▸ h.baseClosed hm, by simp only [h6, h7]; exact h.tracks, fun a b => by simp only [h7]; exact h.allRead a b,
      fun l hl => by simp only [h6]; exact h.threw l hl,
      fun hu => by
        have := h.rows hu
        simp only [he, List.filter_append]
        rw [this]
        simp [hf], h.lost, h.safe, h.empty, by simp only [h7]; exact h.single⟩
  | dead o t ho he ha =>
    obtain ⟨h1, h2, h3, h4, h5, h6, h7⟩ := own o ho
    have hno : s.threw ≠ none := fun hn =>
      (notDone o t ho he).1 (h.done hn (by intro hm; rw [hm] at ha; simp [Main.alive] at ha) (by intro hm; rw [hm] at ha; simp [Main.alive] at ha))
    exact ⟨h1, h.exporter, ⟨h2, h.refused.2⟩, ⟨h3, h.notIdle.2⟩, fun hm => ⟨(h.reading hm).1, h4 ▸ (h.reading hm).2⟩,
      fun hm => ⟨(h.joining hm).1, h4 ▸ (h.joining hm).2⟩, fun a b c => h5 (h.done a b c), h.closed, h.exporterDone,
      fun hm => h4 ▸ h.baseClosed hm, by simp only [h6, h7]; exact h.tracks, fun a b => by simp only [h7]; exact h.allRead a b,
      fun l hl => by simp only [h6]; exact h.threw l hl, fun hu => by simp at hu, h.lost, fun hn => absurd hn hno,
      fun hn => absurd (h.threw [] hn) (notDone o t ho he).2, by simp only [h7]; exact h.single⟩
  | read o hm ho hp =>
    obtain ⟨l, hl⟩ := h.single
    obtain ⟨hn, hc⟩ := h.reading hm
    obtain ⟨t, l', rfl, hq, rfl⟩ := read_accepts ho hp hl hc
    refine ⟨known_push h.outer hc hq t [l'], h.exporter, h.refused, h.notIdle, h.reading, h.joining, h.done, h.closed, h.exporterDone,
      h.baseClosed, ?_, fun _ hr => absurd hm hr, ?_, h.rows, h.lost, h.safe, h.empty, ⟨l', rfl⟩⟩
    · rw [← h.tracks, hl]
      simp
    · intro x hx
      rw [hn] at hx
      simp at hx
  | throw hm =>
    have hal : s.exporter.closed = false := by
      cases hc : s.exporter.closed with
      | false => rfl
      | true => have := h.closed.1 hc; rw [hm] at this; simp [Main.alive] at this
    have hs := h.safe (h.reading hm).1
    exact ⟨h.outer, h.exporter, h.refused, h.notIdle, by simp, by simp, by simp, by simp [Main.alive, hal], by simp [Main.alive], by simp, h.tracks,
      by simp, by simp, h.rows, h.lost, fun _ => hs, fun _ => hs, h.single⟩
  | stop hm hp =>
    have hal : s.exporter.closed = false := by
      cases hc : s.exporter.closed with
      | false => rfl
      | true => have := h.closed.1 hc; rw [hm] at this; simp [Main.alive] at this
    exact ⟨known_close h.outer, h.exporter, h.refused, h.notIdle, by simp, fun _ => ⟨(h.reading hm).1, rfl⟩, by simp, by simp [Main.alive, hal],
      by simp [Main.alive], by simp, h.tracks, fun _ _ => hp, h.threw, h.rows, h.lost, h.safe, h.empty, h.single⟩
  | joined hm hd =>
    have hal : s.exporter.closed = false := by
      cases hc : s.exporter.closed with
      | false => rfl
      | true => have := h.closed.1 hc; rw [hm] at this; simp [Main.alive] at this
    exact ⟨h.outer, h.exporter, h.refused, h.notIdle, by simp, by simp, fun _ _ _ => hd, by simp [Main.alive, hal],
      by simp [Main.alive], by simp, h.tracks, fun hn _ => h.allRead hn (by rw [hm]; simp), h.threw, h.rows, h.lost, h.safe, h.empty, h.single⟩
  | exporterStop hm =>
    exact ⟨h.outer, known_close h.exporter, h.refused, h.notIdle, by simp, by simp,
      fun hn _ _ => h.done hn (by rw [hm]; simp) (by rw [hm]; simp), by simp,
      by simp [Main.alive], by simp, h.tracks, fun hn _ => h.allRead hn (by rw [hm]; simp), h.threw, h.rows, by simp, h.safe, h.empty, h.single⟩
  | exporterJoined hm hd =>
    exact ⟨h.outer, h.exporter, h.refused, h.notIdle, by simp, by simp,
      fun hn _ _ => h.done hn (by rw [hm]; simp) (by rw [hm]; simp), by simp [Main.alive, h.closed, hm], fun _ => hd,
      by simp, h.tracks, fun hn _ => h.allRead hn (by rw [hm]; simp), h.threw, h.rows, h.lost, h.safe, h.empty, h.single⟩
  | baseClose hm =>
    have ha : s.main.alive = false := by rw [hm]; rfl
    exact ⟨known_close h.outer, h.exporter, h.refused, h.notIdle, by simp, by simp,
      fun hn _ _ => h.done hn (by rw [hm]; simp) (by rw [hm]; simp), by simp [Main.alive, h.closed, hm], fun _ => h.exporterDone ha,
      by simp, h.tracks, fun hn _ => h.allRead hn (by rw [hm]; simp), h.threw, h.rows, h.lost, h.safe, h.empty, h.single⟩
  | baseJoined hm hd =>
    have ha : s.main.alive = false := by rw [hm]; rfl
    exact ⟨h.outer, h.exporter, h.refused, h.notIdle, by simp, by simp,
      fun hn _ _ => h.done hn (by rw [hm]; simp) (by rw [hm]; simp), by simp [Main.alive, h.closed, hm], fun _ => h.exporterDone ha,
      fun _ => h.baseClosed (.inl hm), h.tracks, fun hn _ => h.allRead hn (by rw [hm]; simp), h.threw, h.rows, h.lost, h.safe, h.empty, h.single⟩

theorem inv {s : Sys T} (h : ReflTransGen (SysStep co ce fails) (init co ce tracks) s) : Inv co ce fails tracks s := by
  induction h with
  | refl => exact inv_init
  | tail _ hs ih => exact inv_step ih hs

/-! ### Nothing destroyed is used -/

/-- **C78, destruction (in part).**  In every execution without exception of the reader, and in every execution in which it is
thrown before a track was queued: nothing destroyed is used, and no row is passed to an exporter that was stopped.  Missing: the
reader throws after a track was queued (`unwinding_fails`). -/
theorem safe_partial {s : Sys T} (h : ReflTransGen (SysStep co ce fails) (init co ce tracks) s) (hn : s.threw = none ∨ s.threw = some []) :
    s.ub = false ∧ s.lost = [] := by
  rcases hn with hn | hn
  · exact (inv h).safe hn
  · exact (inv h).empty hn

/-- The reader throws at once, for example since a file does not exist. -/
example : ∃ s, ReflTransGen (SysStep ⟨1, 1⟩ ⟨1, 1⟩ (fun _ => false)) (init ⟨1, 1⟩ ⟨1, 1⟩ [7, 8]) s ∧ s.threw = some [] ∧ s.main = .exporterStop :=
  ⟨_, .head (.throw _ rfl) .refl, rfl, rfl⟩

/-! ### Rows -/

/-- A step that accepts no track and no row while the coordinator thread concerned is between the two tests of line 79 of
coordinator.hpp. -/
def Quiet (co ce : Config) (fails : T → Bool) (s s' : Sys T) : Prop :=
  SysStep co ce fails s s' ∧ (s.outer.pc = .testClosed → s'.outer.accepted = s.outer.accepted) ∧
    (s.exporter.pc = .testClosed → s'.exporter.accepted = s.exporter.accepted)

/-- The queue is empty when the coordinator thread leaves the loop. -/
def Drained (s : State T) : Prop := s.pc = .testClosed ∨ s.pc = .close ∨ s.pc = .join ∨ s.pc = .done → s.queue = []

theorem drained_own {c : Config} {s s' : State T} (hd : Drained s) (h : Own c s s') : Drained s' := by
  obtain ⟨h, hp, hc, hi⟩ := h
  unfold Drained at *
  cases h with
  | push before after t ts hp' _ _ => rw [hp'] at hp; simp at hp
  | refuse before after t ts hp' _ => rw [hp'] at hp; simp at hp
  | empty h1 h2 => exact fun _ => h2
  | isClosed h1 h2 => exact fun _ => hd (.inl h1)
  | poolClose h1 => exact fun _ => hd (.inr (.inl h1))
  | poolJoined h1 h2 => exact fun _ => hd (.inr (.inr (.inl h1)))
  | pulled t q h1 h2 => simp
  | take t q h1 h2 => exact hd
  | execute b a t h1 => exact hd
  | release h1 => exact hd
  | exit h1 h2 h3 => exact hd
  | stop hc' => exact hd
  | _ => simp

theorem drained_push {c : Config} {s : State T} (hi : Coordinator.Inv c s) (hc : s.closed = false) (hp : s.pc ≠ .testClosed) (q : List T)
    (p : List (List T)) (a : List T) : Drained { s with producers := p, queue := q, accepted := a } := by
  intro h
  rcases h with h | h
  · exact absurd h hp
  · have := hi.closed h
    rw [hc] at this
    simp at this

theorem drained {s : Sys T} (h : ReflTransGen (Quiet co ce fails) (init co ce tracks) s) : Drained s.outer ∧ Drained s.exporter := by
  induction h with
  | refl => constructor <;> intro h <;> simp [init] at h
  | @tail b c hpre hstep ih =>
    have hi := inv (ReflTransGen.mono (fun _ _ h => h.1) _ _ hpre)
    obtain ⟨hs, h1, h2⟩ := hstep
    cases hs with
    | outer o ho he => exact ⟨drained_own ih.1 ho, ih.2⟩
    | exporter e he => exact ⟨ih.1, drained_own ih.2 he⟩
    | write o t ho he hf ha hc hq =>
      refine ⟨drained_own ih.1 ho, drained_push (known_inv hi.exporter hi.refused.2) hc ?_ _ _ _⟩
      intro hp
      have := h2 hp
      simp [accept] at this
    | refuse o t ho he hf ha hc => exact ⟨drained_own ih.1 ho, ih.2⟩
    | fail o t ho he hf ha => exact ⟨drained_own ih.1 ho, ih.2⟩
    | dead o t ho he ha => exact ⟨drained_own ih.1 ho, ih.2⟩
    | read o hm ho hp =>
      obtain ⟨l, hl⟩ := hi.single
      obtain ⟨hn, hc⟩ := hi.reading hm
      obtain ⟨t, l', rfl, hq, rfl⟩ := read_accepts ho hp hl hc
      refine ⟨drained_push (known_inv hi.outer hi.refused.1) hc ?_ _ _ _, ih.2⟩
      intro hp
      have := h1 hp
      simp at this
    | _ => exact ih

theorem done_executed {c : Config} (hc : 1 ≤ c.threads) {s : State T} (hi : Coordinator.Inv c s) (hd : s.pc = .done) (hq : Drained s) :
    s.executed.Perm s.accepted := by
  have hrun := done_not_running hi hd
  have he := hi.done hd
  have hpool : s.pool = [] := (hi.exited (by omega)).2
  simpa [hrun, hpool, hd, hq (.inr (.inr (.inr hd))), Coordinator.held] using hi.all

/-- **C78, rows (in part).**  If the reader does not throw, then at the end the file holds one row for each track read, except for
those whose `execute` threw, and no other rows.  Missing: tracks or rows accepted between the two tests of a coordinator thread
(`row_lost_fails`), tracks whose `execute` throws (`failure_unnoticed_fails`). -/
theorem rows_partial (ho : 1 ≤ co.threads) (he : 1 ≤ ce.threads) {s : Sys T}
    (h : ReflTransGen (Quiet co ce fails) (init co ce tracks) s) (hg : s.main = .gone) (hn : s.threw = none) :
    s.exporter.executed.Perm (tracks.filter (fun t => !fails t)) := by
  have hi := inv (ReflTransGen.mono (fun _ _ h => h.1) _ _ h)
  have hd := drained h
  have hdo : s.outer.pc = .done := hi.done hn (by rw [hg]; simp) (by rw [hg]; simp)
  have hde : s.exporter.pc = .done := hi.exporterDone (by rw [hg]; rfl)
  have h1 := done_executed ho (known_inv hi.outer hi.refused.1) hdo hd.1
  have h2 := done_executed he (known_inv hi.exporter hi.refused.2) hde hd.2
  obtain ⟨hu, hl⟩ := hi.safe hn
  have h3 := hi.rows hu
  rw [hl, List.append_nil] at h3
  have h4 := hi.tracks
  rw [hi.allRead hn (by rw [hg]; simp), List.append_nil] at h4
  rw [h3] at h2
  rw [← h4]
  exact h2.trans (h1.filter _)

/-- Whatever happens, no row is written that is not the one of a track read, and none twice: the rows in the file are part of the
tracks accepted whose `execute` did not throw, each at most as often as it was read. -/
theorem rows_sound {s : Sys T} (h : ReflTransGen (SysStep co ce fails) (init co ce tracks) s) (hu : s.ub = false) :
    s.exporter.executed.Subperm (tracks.filter (fun t => !fails t)) := by
  have hi := inv h
  have h1 : s.exporter.executed.Subperm s.exporter.accepted :=
    (List.sublist_append_left _ _).subperm.trans (known_inv hi.exporter hi.refused.2).all.subperm
  have h2 : s.exporter.accepted.Subperm (s.outer.executed.filter (fun t => !fails t)) := by
    rw [← hi.rows hu]
    exact (List.sublist_append_left _ _).subperm
  have h3 : s.outer.executed.Subperm s.outer.accepted :=
    (List.sublist_append_left _ _).subperm.trans (known_inv hi.outer hi.refused.1).all.subperm
  have h4 : s.outer.accepted.Subperm tracks := by
    rw [← hi.tracks]
    exact (List.sublist_append_left _ _).subperm
  exact h1.trans (h2.trans ((h3.trans h4).filter _))

/-! ### The program ends -/

theorem exporter_step {s : Sys T} (hi : Inv co ce fails tracks s) (hc : 1 ≤ ce.threads) (hz : 1 ≤ ce.size)
    (hb : (s.exporter.closed = false ∧ s.exporter.queue ≠ []) ∨ (s.exporter.closed = true ∧ s.exporter.pc ≠ .done)) :
    ∃ s', SysStep co ce fails s s' ∧ s'.threw = s.threw := by
  by_contra hno
  push Not at hno
  have hd := Coordinator.no_deadlock hc hz (hi.exporter hi.refused.2 []) ?_
  · rcases hb with ⟨h1, h2⟩ | ⟨h1, h2⟩
    · exact h2 (hd.2.2.2.1 h1).2.1
    · exact h2 (hd.2.2.2.2 h1)
  · rintro e' ⟨hs, hcl⟩
    have ho : Own ce { s.exporter with producers := [[]] } e' := by
      refine ⟨hs, ?_, hcl, hi.notIdle.2⟩
      by_contra hne
      cases hs with
      | push before after t ts hp _ _ => rcases before with _ | ⟨b, bs⟩ <;> simp at hp
      | refuse before after t ts hp _ => rcases before with _ | ⟨b, bs⟩ <;> simp at hp
      | _ => exact hne rfl
    have h1 := own_producers ho s.exporter.producers
    refine hno _ (SysStep.exporter s _ ⟨h1, rfl, ?_, hi.notIdle.2⟩) rfl
    exact hcl

theorem outer_own {s : Sys T} (hi : Inv co ce fails tracks s) (hc : 1 ≤ ce.threads) (hz : 1 ≤ ce.size) {o : State T} (h : Own co s.outer o) :
    ∃ s', SysStep co ce fails s s' ∧ s'.threw = s.threw := by
  rcases own_executed h with he | ⟨t, b, a, hr, he⟩
  · exact ⟨_, .outer s o h he, rfl⟩
  cases ha : s.main.alive with
  | false => exact ⟨_, .dead s o t h he ha, rfl⟩
  | true =>
    cases hf : fails t with
    | true => exact ⟨_, .fail s o t h he hf ha, rfl⟩
    | false =>
      cases hcl : s.exporter.closed with
      | true => exact ⟨_, .refuse s o t h he hf ha hcl, rfl⟩
      | false =>
        by_cases hq : s.exporter.queue.length < ce.size
        · exact ⟨_, .write s o t h he hf ha hcl hq, rfl⟩
        · refine exporter_step hi hc hz (.inl ⟨hcl, ?_⟩)
          intro hn
          rw [hn] at hq
          simp at hq
          omega

theorem outer_reading {s : Sys T} (hi : Inv co ce fails tracks s) (ho : 1 ≤ co.threads) (hoz : 1 ≤ co.size) (hc : 1 ≤ ce.threads)
    (hz : 1 ≤ ce.size) (hm : s.main = .reading) (hp : s.outer.producers.flatten ≠ []) :
    ∃ s', SysStep co ce fails s s' ∧ s'.threw = s.threw := by
  by_contra hno
  obtain ⟨l, hl⟩ := hi.single
  have hk := hi.outer hi.refused.1 l
  rw [← hl] at hk
  have hd := Coordinator.no_deadlock ho hoz hk ?_
  · exact hp hd.1
  · rintro o ⟨hs, hcl⟩
    by_cases hpr : o.producers = s.outer.producers
    · exact hno (outer_own hi hc hz ⟨hs, hpr, hcl, hi.notIdle.1⟩)
    · exact hno ⟨_, .read s o hm hs hpr, rfl⟩

theorem outer_closed {s : Sys T} (hi : Inv co ce fails tracks s) (ho : 1 ≤ co.threads) (hoz : 1 ≤ co.size) (hc : 1 ≤ ce.threads)
    (hz : 1 ≤ ce.size) (hcl : s.outer.closed = true) (hp : s.outer.pc ≠ .done) :
    ∃ s', SysStep co ce fails s s' ∧ s'.threw = s.threw := by
  by_contra hno
  have hd := Coordinator.no_deadlock ho hoz (hi.outer hi.refused.1 []) ?_
  · exact hp (hd.2.2.2.2 hcl)
  · rintro e' ⟨hs, hcl'⟩
    have ho : Own co { s.outer with producers := [[]] } e' := by
      refine ⟨hs, ?_, hcl', hi.notIdle.1⟩
      by_contra hne
      cases hs with
      | push before after t ts hp _ _ => rcases before with _ | ⟨b, bs⟩ <;> simp at hp
      | refuse before after t ts hp _ => rcases before with _ | ⟨b, bs⟩ <;> simp at hp
      | _ => exact hne rfl
    have h1 := own_producers ho s.outer.producers
    exact hno (outer_own hi hc hz ⟨h1, rfl, hcl', hi.notIdle.1⟩)

/-- **C78, no deadlock.**  Until everything is destroyed some thread can continue, without a further exception of the reader: full
queues, stopped exporters and the destructors never wait for one another. -/
theorem no_deadlock (ho : 1 ≤ co.threads) (hoz : 1 ≤ co.size) (hc : 1 ≤ ce.threads) (hz : 1 ≤ ce.size) {s : Sys T}
    (h : ReflTransGen (SysStep co ce fails) (init co ce tracks) s) (hg : s.main ≠ .gone) :
    ∃ s', SysStep co ce fails s s' ∧ s'.threw = s.threw := by
  have hi := inv h
  cases hm : s.main with
  | reading =>
    by_cases hp : s.outer.producers.flatten = []
    · exact ⟨_, .stop s hm hp, rfl⟩
    · exact outer_reading hi ho hoz hc hz hm hp
  | joining =>
    by_cases hp : s.outer.pc = .done
    · exact ⟨_, .joined s hm hp, rfl⟩
    · exact outer_closed hi ho hoz hc hz (hi.joining hm).2 hp
  | exporterStop => exact ⟨_, .exporterStop s hm, rfl⟩
  | exporterJoin =>
    by_cases hp : s.exporter.pc = .done
    · exact ⟨_, .exporterJoined s hm hp, rfl⟩
    · exact exporter_step hi hc hz (.inr ⟨hi.closed.2 (.inl hm), hp⟩)
  | base => exact ⟨_, .baseClose s hm, rfl⟩
  | baseJoin =>
    by_cases hp : s.outer.pc = .done
    · exact ⟨_, .baseJoined s hm hp, rfl⟩
    · exact outer_closed hi ho hoz hc hz (hi.baseClosed (.inl hm)) hp
  | gone => exact absurd hm hg

/-- How far the main thread is from its end. -/
def Main.rank : Main → Nat
  | .reading => 6
  | .joining => 5
  | .exporterStop => 4
  | .exporterJoin => 3
  | .base => 2
  | .baseJoin => 1
  | .gone => 0

/-- An upper bound of the number of remaining steps. -/
def measure (co ce : Config) (s : Sys T) : Nat :=
  10 * Coordinator.measure co s.outer + Coordinator.measure ce { s.exporter with producers := [] } + s.main.rank

theorem measure_close (c : Config) (s : State T) : Coordinator.measure c { s with closed := true } ≤ Coordinator.measure c s := by
  by_cases hc : s.closed = false
  · exact Nat.le_of_lt (Coordinator.measure_step (Step.stop s hc))
  · have : ({ s with closed := true } : State T) = s := by
      rcases s with ⟨a, b, c, _⟩
      simp_all
    rw [this]
    exact Nat.le_refl _

theorem measure_accept (c : Config) (e : State T) (t : T) (hc : e.closed = false) :
    Coordinator.measure c { accept e t with producers := [] } = Coordinator.measure c { e with producers := [] } + 8 := by
  simp only [Coordinator.measure, Coordinator.rank, accept, hc, List.length_append, List.length_singleton]
  simp
  omega

theorem measure_step {s s' : Sys T} (h : SysStep co ce fails s s') : measure co ce s' < measure co ce s := by
  unfold measure
  cases h with
  | outer o h he => have := Coordinator.measure_step h.1; simp only; omega
  | exporter e h => have := Coordinator.measure_step (own_producers h []); simp only; omega
  | write o t h he hf ha hc hq =>
    have h1 := Coordinator.measure_step h.1
    have h2 := measure_accept ce s.exporter t hc
    simp only at h2 ⊢
    omega
  | refuse o t h he hf ha hc => have := Coordinator.measure_step h.1; simp only; omega
  | fail o t h he hf ha => have := Coordinator.measure_step h.1; simp only; omega
  | dead o t h he ha => have := Coordinator.measure_step h.1; simp only; omega
  | read o hm h hp => have := Coordinator.measure_step h; simp only; omega
  | throw hm => simp [hm, Main.rank]
  | stop hm hp => have := measure_close co s.outer; simp only [hm, Main.rank]; omega
  | joined hm hd => simp [hm, Main.rank]
  | exporterStop hm =>
    have := measure_close ce { s.exporter with producers := [] }
    simp only [hm, Main.rank] at this ⊢
    omega
  | exporterJoined hm hd => simp [hm, Main.rank]
  | baseClose hm => have := measure_close co s.outer; simp only [hm, Main.rank]; omega
  | baseJoined hm hd => simp [hm, Main.rank]

/-- **C78, no livelock.**  There is no infinite execution. -/
theorem ends (f : Nat → Sys T) : ¬ ∀ n, SysStep co ce fails (f n) (f (n + 1)) := by
  intro h
  have : ∀ n, measure co ce (f n) + n ≤ measure co ce (f 0) := by
    intro n
    induction n with
    | zero => simp
    | succ n ih => have := measure_step (h n); omega
  have := this (measure co ce (f 0) + 1)
  omega

/-! ### Cases -/

/-- One worker; queues of one task. -/
def one : Config := ⟨1, 1⟩

/-- A state of a coordinator that has ended. -/
def ended (q a e : List Nat) (p : List (List Nat)) : State Nat :=
  { producers := p, queue := q, closed := true, pc := .done, sem := 1, pool := [], poolClosed := true, running := [],
    releasing := 0, exited := 1, accepted := a, refused := [], executed := e }

set_option maxRecDepth 10000 in
/-- One track is read, matched and written before everything is destroyed. -/
example : ReflTransGen (Quiet one one (fun _ => false)) (init one one [7])
    ⟨ended [] [7] [7] [[]], ended [] [7] [7] [], .gone, [], none, false⟩ := by
  refine .head ⟨.read _ _ rfl (.push _ [] [] 7 [] rfl rfl (by decide)) (by decide), by decide, by decide⟩ (.head ⟨.outer _ _ ⟨.notEmpty _ rfl (by decide), rfl, rfl, by decide⟩ rfl, by decide, by decide⟩ (.head ⟨.outer _ _ ⟨.pulled _ 7 [] rfl rfl, rfl, rfl, by decide⟩ rfl, by decide, by decide⟩ (
    .head ⟨.outer _ _ ⟨.acquired _ 7 rfl (by decide), rfl, rfl, by decide⟩ rfl, by decide, by decide⟩ (.head ⟨.outer _ _ ⟨.submitted _ 7 rfl, rfl, rfl, by decide⟩ rfl, by decide, by decide⟩ (.head ⟨.stop _ rfl rfl, by decide, by decide⟩ (
    .head ⟨.outer _ _ ⟨.empty _ rfl rfl, rfl, rfl, by decide⟩ rfl, by decide, by decide⟩ (.head ⟨.outer _ _ ⟨.isClosed _ rfl rfl, rfl, rfl, by decide⟩ rfl, by decide, by decide⟩ (.head ⟨.outer _ _ ⟨.poolClose _ rfl, rfl, rfl, by decide⟩ rfl, by decide, by decide⟩ (
    .head ⟨.outer _ _ ⟨.take _ 7 [] rfl (by decide), rfl, rfl, by decide⟩ rfl, by decide, by decide⟩ (.head ⟨.write _ _ 7 ⟨.execute _ [] [] 7 rfl, rfl, rfl, by decide⟩ rfl rfl rfl rfl (by decide), by decide, by decide⟩ (.head ⟨.outer _ _ ⟨.release _ (by decide), rfl, rfl, by decide⟩ rfl, by decide, by decide⟩ (
    .head ⟨.outer _ _ ⟨.exit _ rfl rfl (by decide), rfl, rfl, by decide⟩ rfl, by decide, by decide⟩ (.head ⟨.outer _ _ ⟨.poolJoined _ rfl rfl, rfl, rfl, by decide⟩ rfl, by decide, by decide⟩ (.head ⟨.joined _ rfl rfl, by decide, by decide⟩ (
    .head ⟨.exporter _ _ ⟨.notEmpty _ rfl (by decide), rfl, rfl, by decide⟩, by decide, by decide⟩ (.head ⟨.exporter _ _ ⟨.pulled _ 7 [] rfl rfl, rfl, rfl, by decide⟩, by decide, by decide⟩ (.head ⟨.exporter _ _ ⟨.acquired _ 7 rfl (by decide), rfl, rfl, by decide⟩, by decide, by decide⟩ (
    .head ⟨.exporter _ _ ⟨.submitted _ 7 rfl, rfl, rfl, by decide⟩, by decide, by decide⟩ (.head ⟨.exporterStop _ rfl, by decide, by decide⟩ (.head ⟨.exporter _ _ ⟨.empty _ rfl rfl, rfl, rfl, by decide⟩, by decide, by decide⟩ (
    .head ⟨.exporter _ _ ⟨.isClosed _ rfl rfl, rfl, rfl, by decide⟩, by decide, by decide⟩ (.head ⟨.exporter _ _ ⟨.poolClose _ rfl, rfl, rfl, by decide⟩, by decide, by decide⟩ (.head ⟨.exporter _ _ ⟨.take _ 7 [] rfl (by decide), rfl, rfl, by decide⟩, by decide, by decide⟩ (
    .head ⟨.exporter _ _ ⟨.execute _ [] [] 7 rfl, rfl, rfl, by decide⟩, by decide, by decide⟩ (.head ⟨.exporter _ _ ⟨.release _ (by decide), rfl, rfl, by decide⟩, by decide, by decide⟩ (.head ⟨.exporter _ _ ⟨.exit _ rfl rfl (by decide), rfl, rfl, by decide⟩, by decide, by decide⟩ (
    .head ⟨.exporter _ _ ⟨.poolJoined _ rfl rfl, rfl, rfl, by decide⟩, by decide, by decide⟩ (.head ⟨.exporterJoined _ rfl rfl, by decide, by decide⟩ (.head ⟨.baseClose _ rfl, by decide, by decide⟩ (
    .head ⟨.baseJoined _ rfl rfl, by decide, by decide⟩ (?_)))))))))))))))))))))))))))))))
  exact .refl

/-- **C78 fails: track lost.**  The coordinator thread finds the queue empty, then the last track is queued and the queue is
closed: the program ends normally, the track has no row (compare `MM.Coordinator.join_fails`). -/
theorem row_lost_fails : ReflTransGen (SysStep one one (fun _ => false)) (init one one [7])
    ⟨ended [7] [7] [] [[]], ended [] [] [] [], .gone, [], none, false⟩ := by
  refine .head (.outer _ _ ⟨.empty _ rfl rfl, rfl, rfl, by decide⟩ rfl) (.head (.read _ _ rfl (.push _ [] [] 7 [] rfl rfl (by decide)) (by decide)) (.head (.stop _ rfl rfl) (
    .head (.outer _ _ ⟨.isClosed _ rfl rfl, rfl, rfl, by decide⟩ rfl) (.head (.outer _ _ ⟨.poolClose _ rfl, rfl, rfl, by decide⟩ rfl) (.head (.outer _ _ ⟨.exit _ rfl rfl (by decide), rfl, rfl, by decide⟩ rfl) (
    .head (.outer _ _ ⟨.poolJoined _ rfl rfl, rfl, rfl, by decide⟩ rfl) (.head (.joined _ rfl rfl) (.head (.exporterStop _ rfl) (
    .head (.exporter _ _ ⟨.empty _ rfl rfl, rfl, rfl, by decide⟩) (.head (.exporter _ _ ⟨.isClosed _ rfl rfl, rfl, rfl, by decide⟩) (.head (.exporter _ _ ⟨.poolClose _ rfl, rfl, rfl, by decide⟩) (
    .head (.exporter _ _ ⟨.exit _ rfl rfl (by decide), rfl, rfl, by decide⟩) (.head (.exporter _ _ ⟨.poolJoined _ rfl rfl, rfl, rfl, by decide⟩) (.head (.exporterJoined _ rfl rfl) (
    .head (.baseClose _ rfl) (.head (.baseJoined _ rfl rfl) (?_)))))))))))))))))
  exact .refl

/-- **C78 fails: failures go unnoticed.**  A track whose `execute` throws, for example since its coordinate system is not the one
of the network, has no row; the program goes on and ends normally, there is no message. -/
theorem failure_unnoticed_fails : ReflTransGen (SysStep one one (fun t => decide (t = 7))) (init one one [7])
    ⟨ended [] [7] [7] [[]], ended [] [] [] [], .gone, [], none, false⟩ := by
  refine .head (.read _ _ rfl (.push _ [] [] 7 [] rfl rfl (by decide)) (by decide)) (.head (.outer _ _ ⟨.notEmpty _ rfl (by decide), rfl, rfl, by decide⟩ rfl) (.head (.outer _ _ ⟨.pulled _ 7 [] rfl rfl, rfl, rfl, by decide⟩ rfl) (
    .head (.outer _ _ ⟨.acquired _ 7 rfl (by decide), rfl, rfl, by decide⟩ rfl) (.head (.outer _ _ ⟨.submitted _ 7 rfl, rfl, rfl, by decide⟩ rfl) (.head (.stop _ rfl rfl) (
    .head (.outer _ _ ⟨.empty _ rfl rfl, rfl, rfl, by decide⟩ rfl) (.head (.outer _ _ ⟨.isClosed _ rfl rfl, rfl, rfl, by decide⟩ rfl) (.head (.outer _ _ ⟨.poolClose _ rfl, rfl, rfl, by decide⟩ rfl) (
    .head (.outer _ _ ⟨.take _ 7 [] rfl (by decide), rfl, rfl, by decide⟩ rfl) (.head (.fail _ _ 7 ⟨.execute _ [] [] 7 rfl, rfl, rfl, by decide⟩ rfl rfl rfl) (.head (.outer _ _ ⟨.release _ (by decide), rfl, rfl, by decide⟩ rfl) (
    .head (.outer _ _ ⟨.exit _ rfl rfl (by decide), rfl, rfl, by decide⟩ rfl) (.head (.outer _ _ ⟨.poolJoined _ rfl rfl, rfl, rfl, by decide⟩ rfl) (.head (.joined _ rfl rfl) (
    .head (.exporterStop _ rfl) (.head (.exporter _ _ ⟨.empty _ rfl rfl, rfl, rfl, by decide⟩) (.head (.exporter _ _ ⟨.isClosed _ rfl rfl, rfl, rfl, by decide⟩) (
    .head (.exporter _ _ ⟨.poolClose _ rfl, rfl, rfl, by decide⟩) (.head (.exporter _ _ ⟨.exit _ rfl rfl (by decide), rfl, rfl, by decide⟩) (.head (.exporter _ _ ⟨.poolJoined _ rfl rfl, rfl, rfl, by decide⟩) (
    .head (.exporterJoined _ rfl rfl) (.head (.baseClose _ rfl) (.head (.baseJoined _ rfl rfl) (
    ?_))))))))))))))))))))))))
  exact .refl

/-- **C78 fails: exception of the reader.**  A track was queued before the reader throws.  While it is matched the exporters are
destroyed: the worker uses them afterwards, or passes its row to a stopped exporter, which drops it. -/
theorem unwinding_fails :
    (∃ s, ReflTransGen (SysStep one one (fun _ => false)) (init one one [7]) s ∧ s.threw = some [7] ∧ s.ub = true) ∧
    (∃ s, ReflTransGen (SysStep one one (fun _ => false)) (init one one [7]) s ∧ s.threw = some [7] ∧ s.lost = [7]) := by
  constructor
  · refine ⟨⟨{ ended [] [7] [7] [[]] with closed := false, pc := .testEmpty, poolClosed := false, sem := 0, releasing := 1, exited := 0 },
      ended [] [] [] [], .base, [], some [7], true⟩, ?_, rfl, rfl⟩
    refine .head (.read _ _ rfl (.push _ [] [] 7 [] rfl rfl (by decide)) (by decide)) (.head (.outer _ _ ⟨.notEmpty _ rfl (by decide), rfl, rfl, by decide⟩ rfl) (.head (.outer _ _ ⟨.pulled _ 7 [] rfl rfl, rfl, rfl, by decide⟩ rfl) (
      .head (.outer _ _ ⟨.acquired _ 7 rfl (by decide), rfl, rfl, by decide⟩ rfl) (.head (.outer _ _ ⟨.submitted _ 7 rfl, rfl, rfl, by decide⟩ rfl) (.head (.throw _ rfl) (
      .head (.exporterStop _ rfl) (.head (.exporter _ _ ⟨.empty _ rfl rfl, rfl, rfl, by decide⟩) (.head (.exporter _ _ ⟨.isClosed _ rfl rfl, rfl, rfl, by decide⟩) (
      .head (.exporter _ _ ⟨.poolClose _ rfl, rfl, rfl, by decide⟩) (.head (.exporter _ _ ⟨.exit _ rfl rfl (by decide), rfl, rfl, by decide⟩) (.head (.exporter _ _ ⟨.poolJoined _ rfl rfl, rfl, rfl, by decide⟩) (
      .head (.exporterJoined _ rfl rfl) (.head (.outer _ _ ⟨.take _ 7 [] rfl (by decide), rfl, rfl, by decide⟩ rfl) (.head (.dead _ _ 7 ⟨.execute _ [] [] 7 rfl, rfl, rfl, by decide⟩ rfl rfl) (
      ?_)))))))))))))))
    exact .refl
  · refine ⟨⟨{ ended [] [7] [7] [[]] with closed := false, pc := .testEmpty, poolClosed := false, sem := 0, releasing := 1, exited := 0 },
      { Coordinator.init one [] with pc := .testEmpty, closed := true }, .exporterJoin, [7], some [7], false⟩, ?_, rfl, rfl⟩
    refine .head (.read _ _ rfl (.push _ [] [] 7 [] rfl rfl (by decide)) (by decide)) (.head (.outer _ _ ⟨.notEmpty _ rfl (by decide), rfl, rfl, by decide⟩ rfl) (.head (.outer _ _ ⟨.pulled _ 7 [] rfl rfl, rfl, rfl, by decide⟩ rfl) (
      .head (.outer _ _ ⟨.acquired _ 7 rfl (by decide), rfl, rfl, by decide⟩ rfl) (.head (.outer _ _ ⟨.submitted _ 7 rfl, rfl, rfl, by decide⟩ rfl) (.head (.throw _ rfl) (
      .head (.exporterStop _ rfl) (.head (.outer _ _ ⟨.take _ 7 [] rfl (by decide), rfl, rfl, by decide⟩ rfl) (.head (.refuse _ _ 7 ⟨.execute _ [] [] 7 rfl, rfl, rfl, by decide⟩ rfl rfl rfl rfl) (
      ?_)))))))))
    exact .refl

end MM.Lifetime
