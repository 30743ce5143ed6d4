import Verif.Model.TimeLimit
import Mathlib.Data.Int.Order.Basic

/-!
# C47: a reached time limit stays reached
-/

set_option autoImplicit false
set_option linter.unusedSectionVars false

namespace MM.TimeLimit

variable {R : Type} [LinearOrder R] [Sub R] [Zero R]

theorem call_reached {h : Helper R} (hr : h.reached = true) (c : Call R) :
    (call h c).2.reached = true ∧ (call h c).2.current = h.current ∧ (call h c).2.start = h.start := by
  cases c <;> simp [call, update, reachedMax, updateAndReached, setMax, hr]

theorem run_reached (cs : List (Call R)) : ∀ {h : Helper R}, h.reached = true →
    (run h cs).reached = true ∧ (run h cs).current = h.current ∧ (run h cs).start = h.start := by
  induction cs with
  | nil => intro h hr; exact ⟨hr, rfl, rfl⟩
  | cons c cs ih =>
    intro h hr
    obtain ⟨h1, h2, h3⟩ := call_reached hr c
    obtain ⟨h4, h5, h6⟩ := ih h1
    exact ⟨h4, h5.trans h2, h6.trans h3⟩

theorem answer_reached {h : Helper R} {c : Call R} (ha : (call h c).1 = some true) : (call h c).2.reached = true := by
  cases c with
  | update now => simp [call] at ha
  | setMax m => simp [call] at ha
  | reached =>
    simp only [call, reachedMax] at ha ⊢
    split at ha <;> simp_all
  | updateAndReached now =>
    simp only [call, updateAndReached, update, reachedMax] at ha ⊢
    split at ha <;> simp_all

/-- **C47.**  After the answer "reached", whatever is called, every question is answered with "reached" and the elapsed time stays
the same; also when a longer limit is set. -/
theorem reached_sticky (h : Helper R) (c : Call R) (ha : (call h c).1 = some true) (cs : List (Call R)) :
    (∀ d b, (call (run (call h c).2 cs) d).1 = some b → b = true) ∧ elapsed (run (call h c).2 cs) = elapsed (call h c).2 := by
  obtain ⟨h1, h2, h3⟩ := run_reached cs (answer_reached ha)
  constructor
  · generalize run (call h c).2 cs = r at h1
    intro d b hb
    cases d with
    | update now => simp [call] at hb
    | setMax m => simp [call] at hb
    | reached => simpa [call, reachedMax, h1] using hb.symm
    | updateAndReached now => simpa [call, updateAndReached, reachedMax, h1] using hb.symm
  · unfold elapsed
    rw [h2, h3]

/-- **C47.**  The first answer is "reached" exactly if the limit is positive and the elapsed time, of the last update before or in
this call, is not below it. -/
theorem reached_first (h : Helper R) (hr : h.reached = false) (now : R) :
    ((call h .reached).1 = some true ↔ 0 < h.max ∧ h.max ≤ h.current - h.start) ∧
    ((call h (.updateAndReached now)).1 = some true ↔ 0 < h.max ∧ h.max ≤ now - h.start) := by
  constructor <;> simp [call, updateAndReached, update, reachedMax, hr, hasMax, elapsed] <;> exact fun _ => decide_eq_true_iff

/-- **C47.**  A limit that is never positive is never reached. -/
theorem never_reached (max now : R) (hm : max ≤ 0) (cs : List (Call R)) (hcs : ∀ m, .setMax m ∈ cs → m ≤ 0) (c : Call R) :
    (call (run (make max now) cs) c).1 ≠ some true := by
  have key : ∀ (cs : List (Call R)) (h : Helper R), h.max ≤ 0 → h.reached = false → (∀ m, .setMax m ∈ cs → m ≤ 0) →
      (run h cs).max ≤ 0 ∧ (run h cs).reached = false := by
    intro cs
    induction cs with
    | nil => intro h h1 h2 _; exact ⟨h1, h2⟩
    | cons c cs ih =>
      intro h h1 h2 h3
      have hn : ¬ 0 < h.max := not_lt.2 h1
      refine ih _ ?_ ?_ (fun m hmem => h3 m (List.mem_cons_of_mem _ hmem))
      · cases c with
        | update now => simpa [call, update, h2] using h1
        | setMax m => simpa [call, setMax] using h3 m (List.mem_cons_self ..)
        | reached => simpa [call, reachedMax, h2] using h1
        | updateAndReached now => simpa [call, updateAndReached, update, reachedMax, h2] using h1
      · cases c with
        | update now => simpa [call, update, h2] using h2
        | setMax m => simpa [call, setMax] using h2
        | reached => simp [call, reachedMax, h2, hasMax, hn]
        | updateAndReached now => simp [call, updateAndReached, update, reachedMax, h2, hasMax, hn]
  obtain ⟨h1, h2⟩ := key cs (make max now) hm rfl hcs
  have hn : ¬ 0 < (run (make max now) cs).max := not_lt.2 h1
  cases c <;> simp [call, updateAndReached, update, reachedMax, h2, hasMax, hn]

example : (call (make 10 100 : Helper Int) (.updateAndReached 109)).1 = some false ∧
    (call (run (make 10 100 : Helper Int) [.updateAndReached 109, .update 110]) .reached).1 = some true ∧
    (call (run (make 10 100 : Helper Int) [.updateAndReached 110, .setMax 1000, .update 105]) .reached).1 = some true ∧
    elapsed (run (make 10 100 : Helper Int) [.updateAndReached 110, .update 150]) = 10 := by decide

end MM.TimeLimit
