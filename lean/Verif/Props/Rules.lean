import Verif.Model.Rules
import Mathlib.Data.List.Basic

/-!
# C41: rule strings
-/

set_option autoImplicit false
set_option linter.unusedSectionVars false

namespace MM.Rules

/-! ### How rules are written (documentation, app/options.cpp 590-600) -/

/-- `<DEFAULT> ::= "true" | "false"` -/
def showBool (b : Bool) : List Char := if b then "true".toList else "false".toList

/-- `[ "=" <VALUE> ]` -/
def showValue : Option (List Char) → List Char
  | some v => '=' :: v
  | none => []

/-- `<RULE> ::= <DEFAULT> "," <TAG> [ "=" <VALUE> ]` -/
def showRule (r : Rule) : List Char := showBool r.result ++ ',' :: r.key ++ showValue r.value

/-- Each rule after a `|`. -/
def showRest : List Rule → List Char
  | [] => []
  | r :: rs => '|' :: showRule r ++ showRest rs

/-- Rules separated by `|`. -/
def showRules : List Rule → List Char
  | [] => []
  | r :: rs => showRule r ++ showRest rs

/-- `<SPEC> ::= <DEFAULT> { "|" <RULE> }*` -/
def showSpec (d : Bool) (rs : List Rule) : List Char := showBool d ++ showRest rs

/-- No separator in the key, no `|` in the value; both may contain commas, the value also `=`. -/
def Writable (r : Rule) : Prop := '|' ∉ r.key ∧ '=' ∉ r.key ∧ ∀ v, r.value = some v → '|' ∉ v

/-! ### Tokens -/

theorem findIdx_append {s t : List Char} {c : Char} (h : c ∉ s) :
    (s ++ c :: t).findIdx? (fun x => decide (x = c)) = some s.length := by
  rw [List.findIdx?_append]
  have : s.findIdx? (fun x => decide (x = c)) = none := by
    rw [List.findIdx?_eq_none_iff]
    intro x hx
    simp only [decide_eq_false_iff_not]
    rintro rfl
    exact h hx
  rw [this, List.findIdx?_cons]
  simp

theorem findFrom_none {s : List Char} {c : Char} {start : Nat} (h : c ∉ s) : findFrom s c start = none := by
  unfold findFrom
  rw [Option.map_eq_none_iff, List.findIdx?_eq_none_iff]
  intro x hx
  simp only [decide_eq_false_iff_not]
  rintro rfl
  exact h (List.mem_of_mem_drop hx)

theorem comma_showBool (b : Bool) : ',' ∉ showBool b ∧ '|' ∉ showBool b ∧ '=' ∉ showBool b := by cases b <;> decide

theorem parseBool_showBool (b : Bool) : parseBool (showBool b) = b := by cases b <;> decide

theorem parseToken_showRule {r : Rule} (h : Writable r) : parseToken (showRule r) = r := by
  obtain ⟨res, key, value⟩ := r
  obtain ⟨h1, h2, h3⟩ := h
  simp only at h1 h2 h3
  have hc : findFrom (showRule ⟨res, key, value⟩) ',' 0 = some (showBool res).length := by
    unfold findFrom showRule
    rw [List.drop_zero, List.append_assoc, List.cons_append, findIdx_append (comma_showBool res).1]
    rfl
  unfold parseToken
  rw [hc]
  simp only
  have hdrop : (showRule ⟨res, key, value⟩).drop (showBool res).length =
      ',' :: key ++ showValue value := by
    unfold showRule
    rw [List.append_assoc]
    simp
  have htake : (showRule ⟨res, key, value⟩).take (showBool res).length = showBool res := by
    unfold showRule
    rw [List.append_assoc]
    simp
  have hdrop1 : (showRule ⟨res, key, value⟩).drop ((showBool res).length + 1) =
      key ++ showValue value := by
    rw [← List.drop_drop, hdrop]
    rfl
  cases value with
  | none =>
    have he : findFrom (showRule ⟨res, key, none⟩) '=' (showBool res).length = none := by
      apply findFrom_none
      unfold showRule
      simp [(comma_showBool res).2.2, h2, showValue]
    rw [he]
    simp only [substr, htake, List.drop_zero, hdrop1, parseBool_showBool, showValue, List.append_nil]
  | some v =>
    have he : findFrom (showRule ⟨res, key, some v⟩) '=' (showBool res).length = some (key.length + 1 + (showBool res).length) := by
      unfold findFrom
      rw [hdrop, showValue]
      have := findIdx_append (s := ',' :: key) (t := v) (c := '=') (by simp [h2])
      rw [this]
      rfl
    rw [he]
    simp only [substr, htake, List.drop_zero, hdrop1, parseBool_showBool]
    have e1 : key.length + 1 + (showBool res).length - (showBool res).length - 1 = key.length := by omega
    have e2 : key.length + 1 + (showBool res).length + 1 = (showBool res).length + 1 + (key.length + 1) := by omega
    rw [e1, e2, ← List.drop_drop, hdrop1]
    simp [showValue]

theorem pipe_showRule {r : Rule} (h : Writable r) : '|' ∉ showRule r := by
  obtain ⟨res, key, value⟩ := r
  obtain ⟨h1, h2, h3⟩ := h
  simp only at h1 h2 h3
  unfold showRule
  cases value with
  | none => simp [(comma_showBool res).2.1, h1, showValue]
  | some v => simp [(comma_showBool res).2.1, h1, h3 v rfl, showValue]

/-! ### The loop -/

theorem findFrom_ge {s : List Char} {c : Char} {start i : Nat} (h : findFrom s c start = some i) : start ≤ i := by
  unfold findFrom at h
  rw [Option.map_eq_some_iff] at h
  obtain ⟨j, _, rfl⟩ := h
  omega

theorem tokenEnd_ge {s : List Char} {start : Nat} (h : start < s.length) : start ≤ tokenEnd s start := by
  unfold tokenEnd
  cases hf : findFrom s '|' start with
  | none => simp; omega
  | some i => exact findFrom_ge hf

/-- **C41**, termination: parsing ends for every string. -/
theorem parse_terminates (s : List Char) : ∃ rs, parseRules s = some rs := by
  have key : ∀ fuel start, s.length ≤ start + fuel → ∃ rs, loop s fuel start = some rs := by
    intro fuel
    induction fuel with
    | zero => intro start h; exact ⟨[], by rw [loop, if_neg (by omega)]⟩
    | succ fuel ih =>
      intro start h
      rw [loop]
      by_cases hs : start < s.length
      · rw [if_pos hs]
        have := tokenEnd_ge hs
        obtain ⟨rs, hrs⟩ := ih (tokenEnd s start + 1) (by omega)
        exact ⟨_, by rw [hrs]; rfl⟩
      · rw [if_neg hs]
        exact ⟨[], rfl⟩
  exact key s.length 0 (by omega)

/-- One token at the position, not the last one. -/
theorem loop_token {s pre t rest : List Char} (hs : s = pre ++ t ++ '|' :: rest) (ht : '|' ∉ t) (fuel : Nat) :
    loop s (fuel + 1) pre.length = (loop s fuel (pre ++ t ++ ['|']).length).map (parseToken t :: ·) := by
  have hlt : pre.length < s.length := by rw [hs]; simp; omega
  have hend : tokenEnd s pre.length = t.length + pre.length := by
    unfold tokenEnd findFrom
    rw [hs, List.append_assoc, List.drop_left, findIdx_append ht]
    rfl
  rw [loop, if_pos hlt, hend]
  have h1 : t.length + pre.length + 1 = (pre ++ t ++ ['|']).length := by simp; omega
  have h2 : substr s pre.length (some (t.length + pre.length - pre.length)) = t := by
    unfold substr
    rw [Nat.add_sub_cancel, hs, List.append_assoc, List.drop_left]
    simp
  rw [h1, h2]

/-- The last token. -/
theorem loop_last {s pre t : List Char} (hs : s = pre ++ t) (ht : '|' ∉ t) (hne : t ≠ []) (fuel : Nat) :
    loop s (fuel + 1) pre.length = some [parseToken t] := by
  have hpos : 0 < t.length := List.length_pos_iff.2 hne
  have hlt : pre.length < s.length := by rw [hs]; simp; omega
  have hend : tokenEnd s pre.length = s.length := by
    unfold tokenEnd findFrom
    have : (s.drop pre.length).findIdx? (fun x => decide (x = '|')) = none := by
      rw [hs, List.drop_left, List.findIdx?_eq_none_iff]
      intro x hx
      simp only [decide_eq_false_iff_not]
      rintro rfl
      exact ht hx
    rw [this]
    rfl
  have h2 : substr s pre.length (some (s.length - pre.length)) = t := by
    unfold substr
    rw [hs, List.drop_left, List.length_append, Nat.add_sub_cancel_left]
    exact List.take_length
  rw [loop, if_pos hlt, hend, h2]
  have h3 : loop s fuel (s.length + 1) = some [] := by
    cases fuel <;> rw [loop, if_neg (by omega)]
  rw [h3]
  rfl

theorem showRule_ne (r : Rule) : showRule r ≠ [] := by
  unfold showRule
  simp

theorem loop_rest (rs : List Rule) : ∀ (s pre t : List Char) (fuel : Nat), s = pre ++ t ++ showRest rs → '|' ∉ t → t ≠ [] →
    (∀ r ∈ rs, Writable r) → rs.length < fuel → loop s fuel pre.length = some (parseToken t :: rs) := by
  induction rs with
  | nil =>
    intro s pre t fuel hs ht hne _ hf
    obtain ⟨f, rfl⟩ : ∃ f, fuel = f + 1 := ⟨fuel - 1, by omega⟩
    exact loop_last (by simpa [showRest] using hs) ht hne f
  | cons r rs ih =>
    intro s pre t fuel hs ht hne hw hf
    simp only [List.length_cons] at hf
    obtain ⟨f, rfl⟩ : ∃ f, fuel = f + 1 := ⟨fuel - 1, by omega⟩
    rw [loop_token (rest := showRule r ++ showRest rs) (by rw [hs]; simp [showRest]) ht]
    have hr := hw r (List.mem_cons_self ..)
    rw [ih s (pre ++ t ++ ['|']) (showRule r) f (by rw [hs]; simp [showRest]) (pipe_showRule hr) (showRule_ne r)
      (fun x hx => hw x (List.mem_cons_of_mem _ hx)) (by omega)]
    rw [parseToken_showRule hr]
    rfl

theorem showRest_length (rs : List Rule) : rs.length ≤ (showRest rs).length := by
  induction rs with
  | nil => simp
  | cons r rs ih => simp [showRest]; omega

/-- **C41.**  Parsing the text of a list of rules gives the list. -/
theorem parse_show (rs : List Rule) (h : ∀ r ∈ rs, Writable r) : parseRules (showRules rs) = some rs := by
  cases rs with
  | nil => rfl
  | cons r rs =>
    have hr := h r (List.mem_cons_self ..)
    unfold parseRules
    have := loop_rest rs (showRules (r :: rs)) [] (showRule r) (showRules (r :: rs)).length (by simp [showRules]) (pipe_showRule hr)
      (showRule_ne r) (fun x hx => h x (List.mem_cons_of_mem _ hx)) (by
        have h1 := showRest_length rs
        have h2 : 0 < (showRule r).length := List.length_pos_iff.2 (showRule_ne r)
        simp [showRules]
        omega)
    rw [parseToken_showRule hr] at this
    exact this

/-- **C41.**  A filter given in the documented notation has the given default and the given rules in their order. -/
theorem filter_show (d : Bool) (rs : List Rule) (h : ∀ r ∈ rs, Writable r) :
    createFilter (showSpec d rs) = some ⟨d, rs.map toFilterRule⟩ := by
  have hne : showBool d ≠ [] := by cases d <;> decide
  have := loop_rest rs (showSpec d rs) [] (showBool d) (showSpec d rs).length (by simp [showSpec]) (comma_showBool d).2.1 hne h (by
    have h1 := showRest_length rs
    have h2 : 0 < (showBool d).length := List.length_pos_iff.2 hne
    simp [showSpec]
    omega)
  unfold createFilter parseRules
  simp only [List.length_nil] at this
  rw [this]
  have hp : (parseToken (showBool d)).result = d := by cases d <;> decide
  simp [hp]

/-- **C41.**  Without rules nothing passes the filter, whatever its tags. -/
theorem filter_nothing : createFilter [] = some ⟨false, []⟩ := by rfl

/-- The example of the documentation, and a value with comma and equality sign. -/
example : createFilter "false|false,highway=construction|true,highway".toList =
    some ⟨false, [⟨false, "highway", some "construction"⟩, ⟨true, "highway", none⟩]⟩ := by rfl

example : Writable ⟨true, "name".toList, some "a,b=c".toList⟩ ∧
    parseRules (showRules [⟨true, "name".toList, some "a,b=c".toList⟩, ⟨false, "x".toList, none⟩]) =
      some [⟨true, "name".toList, some "a,b=c".toList⟩, ⟨false, "x".toList, none⟩] := by
  refine ⟨⟨by decide, by decide, ?_⟩, by decide⟩
  intro v hv
  simp only [Option.some.injEq] at hv
  subst hv
  decide

end MM.Rules
