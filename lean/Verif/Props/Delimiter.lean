import Verif.Model.Delimiter

/-!
# C48: delimiter escapes
-/

set_option autoImplicit false
set_option linter.unusedSectionVars false

namespace MM.Delimiter

/-- One way to write a character. -/
inductive Written : Char → List Char → Prop
  /-- As it is. -/
  | plain (c : Char) (h : c ≠ '\\') : Written c [c]
  | tab : Written '\t' ['\\', 't']
  | space : Written ' ' ['\\', 's']
  /-- After a backslash, also the backslash itself. -/
  | escaped (c : Char) (ht : c ≠ 't') (hs : c ≠ 's') : Written c ['\\', c]

/-- The characters in a row. -/
inductive WrittenAll : List Char → List Char → Prop
  | nil : WrittenAll [] []
  | cons {c : Char} {w cs ws : List Char} (h : Written c w) (hs : WrittenAll cs ws) : WrittenAll (c :: cs) (w ++ ws)

/-- **C48.**  Every list of characters can be written, also with backslashes, tabs and spaces. -/
theorem writable (cs : List Char) : ∃ ws, WrittenAll cs ws := by
  induction cs with
  | nil => exact ⟨[], .nil⟩
  | cons c cs ih =>
    obtain ⟨ws, h⟩ := ih
    by_cases hc : c = '\\'
    · subst hc
      exact ⟨_, .cons (.escaped '\\' (by decide) (by decide)) h⟩
    · exact ⟨_, .cons (.plain c hc) h⟩

/-- **C48.**  However it is written, the importers decode exactly the list. -/
theorem parse_written {cs ws : List Char} (h : WrittenAll cs ws) : parse false ws = cs := by
  induction h with
  | nil => rfl
  | cons h _ ih =>
    cases h with
    | plain c hc => simp [parse, hc, ih]
    | tab => simp [parse, unescape, ih]
    | space => simp [parse, unescape, ih]
    | escaped c ht hs => simp [parse, unescape, ht, hs, ih]

/-- **C48**, agreement: both decoders agree if no two backslashes follow each other.  Missing: escaped backslashes
(`decoders_fails`). -/
theorem decoders_partial (ws : List Char) (h : ¬ ['\\', '\\'] <:+: ws) : parse false ws = parseFree false ws := by
  have key : ∀ (ws : List Char) (e : Bool), ¬ ['\\', '\\'] <:+: ws → (e = true → ws.head? ≠ some '\\') → parse e ws = parseFree e ws := by
    intro ws
    induction ws with
    | nil => intro e _ _; cases e <;> rfl
    | cons c ws ih =>
      intro e h he
      have h' : ¬ ['\\', '\\'] <:+: ws := fun hi => h (hi.trans (List.infix_cons (List.infix_refl _)))
      cases e with
      | true =>
        have hc : c ≠ '\\' := by simpa using he rfl
        simp only [parse, parseFree, hc, if_false, if_true]
        rw [ih false h' (by simp)]
      | false =>
        by_cases hc : c = '\\'
        · subst hc
          simp only [parse, parseFree, if_true]
          apply ih true h'
          intro _ hh
          cases ws with
          | nil => simp at hh
          | cons d ws =>
            simp only [List.head?_cons, Option.some.injEq] at hh
            subst hh
            exact h ⟨[], ws, rfl⟩
        · simp only [parse, parseFree, hc, if_false, Bool.false_eq_true]
          rw [ih false h' (by simp)]
  exact key ws false h (by simp)

/-- **C48 fails**: the free function cannot decode a backslash. -/
theorem decoders_fails : parse false ['\\', '\\'] = ['\\'] ∧ ∀ ws, '\\' ∉ parseFree false ws := by
  refine ⟨by decide, ?_⟩
  have key : ∀ (ws : List Char) (e : Bool), '\\' ∉ parseFree e ws := by
    intro ws
    induction ws with
    | nil => intro e; simp [parseFree]
    | cons c ws ih =>
      intro e
      rw [parseFree]
      by_cases hc : c = '\\'
      · rw [if_pos hc]; exact ih true
      · rw [if_neg hc]
        cases e with
        | true =>
          simp only [if_true, List.mem_cons, not_or]
          refine ⟨?_, ih false⟩
          unfold unescape
          split
          · decide
          · split
            · decide
            · exact fun h => hc h.symm
        | false =>
          simp only [Bool.false_eq_true, if_false, List.mem_cons, not_or]
          exact ⟨fun h => hc h.symm, ih false⟩
  exact fun ws => key ws false

example : WrittenAll ['\t', ';', '\\'] ['\\', 't', ';', '\\', '\\'] ∧ parse false ['\\', 't', ';', '\\', '\\'] = ['\t', ';', '\\'] :=
  ⟨.cons .tab (.cons (.plain ';' (by decide)) (.cons (.escaped '\\' (by decide) (by decide)) .nil)), by decide⟩

end MM.Delimiter
