import Verif.Model.Program
import Mathlib.Data.List.Basic
import Mathlib.Tactic.SplitIfs

/-!
# C76: exit status of the program
-/

set_option autoImplicit false
set_option linter.unusedSectionVars false

namespace MM.Program

/-- Is the switch of this mode set? -/
def Args.has (a : Args) : Mode → Bool
  | .prepare => a.prepare
  | .match_ => a.match_
  | .server => a.server
  | .compare => a.compare

/-- The mode is the only one asked for. -/
def Only (a : Args) (m : Mode) : Prop := ∀ k, a.has k = true ↔ k = m

theorem chosen_iff (a : Args) (m : Mode) : chosen a = some m ↔ Only a m := by
  have h : Only a m ↔ ((a.prepare = true ↔ Mode.prepare = m) ∧ (a.match_ = true ↔ Mode.match_ = m) ∧
      (a.server = true ↔ Mode.server = m) ∧ (a.compare = true ↔ Mode.compare = m)) := by
    constructor
    · intro h
      exact ⟨h .prepare, h .match_, h .server, h .compare⟩
    · rintro ⟨h1, h2, h3, h4⟩ k
      cases k
      · exact h1
      · exact h2
      · exact h3
      · exact h4
  rw [h]
  rcases a with ⟨o, i, p, m', s, c⟩
  unfold chosen
  cases p <;> cases m' <;> cases s <;> cases c <;> cases m <;> simp

theorem process_cases (p : Parsed) (asked : Bool) (w : Option Mode) :
    (process p asked w = ([.error], false) ∧ (p.bad = true ∨ p.missing = true)) ∨ process p asked w = ([.help w], false) ∨
    process p asked w = ([.version], false) ∨ process p asked w = ([], true) := by
  unfold process
  split_ifs <;> simp_all

theorem run_cases (a : Args) (ok : Bool) :
    (run a ok = ([.error], 1) ∨ run a ok = ([.help none], 1) ∨ run a ok = ([.version], 1)) ∨
    (chosen a = none ∧ run a ok = ([.error], 2)) ∨
    (chosen a = some .server ∧ run a ok = ([], 0)) ∨
    ∃ m, chosen a = some m ∧ m ≠ .server ∧
      (((a.inner.bad = true ∨ a.inner.missing = true) ∧ run a ok = ([.error], 0)) ∨ run a ok = ([.help (some m)], 0) ∨
        run a ok = ([.version], 0) ∨ (ok = true ∧ run a ok = ([.done m], 0)) ∨ (ok = false ∧ run a ok = ([.failed m, .error], 3))) := by
  rcases process_cases a.outer (noMode a) none with ⟨h, -⟩ | h | h | h
  · left; left; unfold run; rw [h]; rfl
  · left; right; left; unfold run; rw [h]; rfl
  · left; right; right; unfold run; rw [h]; rfl
  right
  cases hc : chosen a with
  | none => left; exact ⟨rfl, by unfold run; rw [h, hc]; rfl⟩
  | some m =>
    right
    by_cases hm : m = .server
    · subst hm
      left
      exact ⟨rfl, by unfold run dispatch; rw [h, hc]; rfl⟩
    right
    refine ⟨m, rfl, hm, ?_⟩
    rcases process_cases a.inner true (some m) with ⟨h', hb⟩ | h' | h' | h'
    · exact .inl ⟨hb, by unfold run dispatch runMode; rw [h, hc]; simp [hm, h']⟩
    · exact .inr (.inl (by unfold run dispatch runMode; rw [h, hc]; simp [hm, h']))
    · exact .inr (.inr (.inl (by unfold run dispatch runMode; rw [h, hc]; simp [hm, h'])))
    · cases ok
      · exact .inr (.inr (.inr (.inr ⟨rfl, by unfold run dispatch runMode; rw [h, hc]; simp [hm, h']⟩)))
      · exact .inr (.inr (.inr (.inl ⟨rfl, by unfold run dispatch runMode; rw [h, hc]; simp [hm, h']⟩)))

/-- **C76, work.**  Work is done or fails only for the one mode asked for, with options that were read, at most once, and then
it is all that happens, apart from the message about a failure. -/
theorem work_once (a : Args) (ok : Bool) (m : Mode) :
    (.done m ∈ (run a ok).1 ↔ run a ok = ([.done m], 0)) ∧ (.failed m ∈ (run a ok).1 ↔ run a ok = ([.failed m, .error], 3)) ∧
    (.done m ∈ (run a ok).1 → Only a m ∧ ok = true ∧ m ≠ .server) ∧ (.failed m ∈ (run a ok).1 → Only a m ∧ ok = false ∧ m ≠ .server) := by
  simp only [← chosen_iff]
  rcases run_cases a ok with (h | h | h) | ⟨hc, h⟩ | ⟨hc, h⟩ | ⟨k, hc, hk, ⟨hb, h⟩ | h | h | ⟨ho, h⟩ | ⟨ho, h⟩⟩ <;> rw [h] <;>
    simp_all <;> grind

/-- **C76, exit status (in part).**  Status 0 means that the work was done, or that nothing was asked of the mode but help, or
one of two gaps: the options of the mode were wrong or it is the server.  Statuses 2 and 3 always come with a message.
Missing: see `wrong_options_fails`, `server_fails`, `help_fails`. -/
theorem status_partial (a : Args) (ok : Bool) :
    ((run a ok).2 = 0 ↔ (∃ m, run a ok = ([.done m], 0)) ∨ (∃ m, Only a m ∧ (run a ok = ([.help (some m)], 0) ∨ run a ok = ([.version], 0))) ∨
      (∃ m, Only a m ∧ m ≠ .server ∧ (a.inner.bad = true ∨ a.inner.missing = true) ∧ run a ok = ([.error], 0)) ∨
      (Only a .server ∧ run a ok = ([], 0))) ∧
    (2 ≤ (run a ok).2 → (run a ok).1.getLast? = some .error) ∧
    ((∃ m, Event.failed m ∈ (run a ok).1) → (run a ok).2 = 3) ∧
    ((¬ ∃ m, Only a m) → (run a ok).2 ≠ 0) := by
  simp only [← chosen_iff]
  rcases run_cases a ok with (h | h | h) | ⟨hc, h⟩ | ⟨hc, h⟩ | ⟨k, hc, hk, ⟨hb, h⟩ | h | h | ⟨ho, h⟩ | ⟨ho, h⟩⟩ <;> rw [h] <;>
    simp_all <;> grind

/-- **C76, the work is done if it can be.**  With one mode other than the server, options that are read without error in both
passes, and neither help nor version asked for, the work is done and the status tells whether it ended with an exception. -/
theorem does_work (a : Args) (ok : Bool) (m : Mode) (hm : Only a m) (hs : m ≠ .server) (ho : a.outer = ⟨false, false, false, false⟩)
    (hi : a.inner = ⟨false, false, false, false⟩) :
    run a ok = if ok then ([.done m], 0) else ([.failed m, .error], 3) := by
  rw [← chosen_iff] at hm
  unfold run process dispatch runMode process
  rw [hm, ho, hi]
  cases ok <;> simp [hs]

/-- **C76, help.**  Without errors, `--help` shows the help of the mode asked for, and the general one without mode; nothing else
happens. -/
theorem help_shown (a : Args) (ok : Bool) (ho : a.outer = ⟨false, true, false, false⟩) (hi : a.inner = ⟨false, true, false, false⟩) :
    (∀ m, Only a m → m ≠ .server → (run a ok).1 = [.help (some m)]) ∧ ((∀ m, a.has m = false) → (run a ok).1 = [.help none]) := by
  constructor
  · intro m hm hs
    have h := hm m
    have hn : noMode a = false := by
      unfold noMode
      have : a.has m = true := h.2 rfl
      cases m <;> simp_all [Args.has]
    rw [← chosen_iff] at hm
    unfold run process dispatch runMode process
    rw [hm, ho, hi, hn]
    simp [hs]
  · intro h
    have hn : noMode a = true := by
      have h1 := h .prepare
      have h2 := h .match_
      have h3 := h .server
      have h4 := h .compare
      simp only [Args.has] at h1 h2 h3 h4
      simp [noMode, h1, h2, h3, h4]
    unfold run process
    rw [ho, hn]
    simp

/-- `map_matching_2 --compare --help` -/
example : run ⟨⟨false, true, false, false⟩, ⟨false, true, false, false⟩, false, false, false, true⟩ true = ([.help (some .compare)], 0) := by
  decide

/-- `map_matching_2 --match --input net --tracks t.csv` -/
def good : Args := ⟨⟨false, false, false, false⟩, ⟨false, false, false, false⟩, false, true, false, false⟩

example : Only good .match_ := by
  intro k
  cases k <;> decide

example : run good true = ([.done .match_], 0) ∧ run good false = ([.failed .match_, .error], 3) := by decide

/-- **C76 fails: wrong options of a mode.**  `--match --inptu net`, or `--match` without `--input`: an error is written, nothing is
matched, and the exit status is 0. -/
theorem wrong_options_fails : run { good with inner := ⟨true, false, false, false⟩ } true = ([.error], 0) ∧
    run { good with inner := ⟨false, false, false, true⟩ } true = ([.error], 0) := by decide

/-- **C76 fails: server.**  `--server` does nothing, says nothing and ends with status 0. -/
theorem server_fails : run ⟨⟨false, false, false, false⟩, ⟨false, false, false, false⟩, false, false, true, false⟩ true = ([], 0) := by decide

/-- **C76 fails: help and version.**  `--help` and `--version` alone end with the status of an error, `--match --help` does not. -/
theorem help_fails : run ⟨⟨false, true, false, false⟩, ⟨false, true, false, false⟩, false, false, false, false⟩ true = ([.help none], 1) ∧
    run ⟨⟨false, false, true, false⟩, ⟨false, false, true, false⟩, false, false, false, false⟩ true = ([.version], 1) ∧
    run ⟨⟨false, true, false, false⟩, ⟨false, true, false, false⟩, false, true, false, false⟩ true = ([.help (some .match_)], 0) := by decide

end MM.Program
