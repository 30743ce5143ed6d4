import Verif.Model.Forwarder
import Mathlib.Data.List.Basic

/-!
# C38: matches and ground truths are paired by identifier
-/

set_option autoImplicit false
set_option linter.unusedSectionVars false

namespace MM.Forwarder

variable {I V : Type} [DecidableEq I]

/-- What arrives for an identifier. -/
def Event.key : Event I V → I
  | .hit i _ => i
  | .truth i _ => i

/-- The part of a map or of the log for one identifier. -/
def only {A : Type} (i : I) (l : List (I × A)) : List (I × A) := l.filter (fun e => decide (e.1 = i))

theorem find_only (m : List (I × V)) (i : I) : find (only i m) i = find m i := by
  unfold find only
  rw [List.find?_filter]
  simp

theorem only_erase_self (m : List (I × V)) (i : I) : only i (erase m i) = erase (only i m) i := by
  unfold only erase
  simp only [List.filter_filter, Bool.and_comm]

theorem only_erase_ne (m : List (I × V)) {i k : I} (h : k ≠ i) : only i (erase m k) = only i m := by
  unfold only erase
  rw [List.filter_filter]
  apply List.filter_congr
  intro e _
  by_cases he : e.1 = i
  · simp [he, h.symm]
  · simp [he]

theorem only_emplace_self (m : List (I × V)) (i : I) (v : V) : only i (emplace m i v) = emplace (only i m) i v := by
  unfold emplace
  rw [find_only]
  split
  · rfl
  · simp [only]

theorem only_emplace_ne (m : List (I × V)) {i k : I} (h : k ≠ i) (v : V) : only i (emplace m k v) = only i m := by
  unfold emplace
  split
  · rfl
  · simp [only, h]

/-- The part of the state for one identifier. -/
def State.only (i : I) (st : State I V) : State I V := ⟨Forwarder.only i st.hits, Forwarder.only i st.compares, Forwarder.only i st.log⟩

theorem pass_only (i : I) (st : State I V) (e : Event I V) :
    (pass st e).only i = if e.key = i then pass (st.only i) e else st.only i := by
  cases e with
  | hit k v =>
    by_cases h : k = i
    · subst h
      rw [if_pos (show (Event.hit k v).key = k from rfl)]
      simp only [pass, passMatch]
      simp only [State.only, find_only]
      cases find st.compares k with
      | none => simp [only_emplace_self]
      | some g => simp only [only_erase_self]; simp [only]
    · rw [if_neg (show ¬ (Event.hit k v).key = i from h)]
      simp only [pass, passMatch]
      simp only [State.only]
      cases find st.compares k with
      | none => simp [only_emplace_ne _ h]
      | some g => simp only [only_erase_ne _ h]; simp [only, h]
  | truth k v =>
    by_cases h : k = i
    · subst h
      rw [if_pos (show (Event.truth k v).key = k from rfl)]
      simp only [pass, passCompare]
      simp only [State.only, find_only]
      cases find st.hits k with
      | none => simp [only_emplace_self]
      | some g => simp only [only_erase_self]; simp [only]
    · rw [if_neg (show ¬ (Event.truth k v).key = i from h)]
      simp only [pass, passCompare]
      simp only [State.only]
      cases find st.hits k with
      | none => simp [only_emplace_ne _ h]
      | some g => simp only [only_erase_ne _ h]; simp [only, h]

theorem foldl_only (i : I) (es : List (Event I V)) : ∀ st : State I V,
    (es.foldl pass st).only i = (es.filter (fun e => decide (e.key = i))).foldl pass (st.only i) := by
  induction es with
  | nil => intro st; rfl
  | cons e es ih =>
    intro st
    rw [List.foldl_cons, ih, pass_only, List.filter_cons]
    by_cases h : e.key = i <;> simp [h]

theorem finish_only (i : I) (ignore : Bool) (st : State I V) : (finish ignore st).only i = finish ignore (st.only i) := by
  cases ignore with
  | true => simp [finish]
  | false =>
    simp only [finish, Bool.false_eq_true, if_false, State.only]
    simp only [only, List.filter_append, List.filter_map]
    rfl

/-- What happens for an identifier depends only on what arrives for it. -/
theorem log_only (i : I) (ignore : Bool) (es : List (Event I V)) :
    only i (finish ignore (run es)).log = (finish ignore (run (es.filter (fun e => decide (e.key = i))))).log := by
  have h1 := finish_only i ignore (run es)
  have h2 := foldl_only i es ⟨[], [], []⟩
  have : only i (finish ignore (run es)).log = ((finish ignore (run es)).only i).log := rfl
  rw [this, h1]
  unfold run
  rw [h2]
  rfl

/-- **C38.**  An identifier for which one match and one ground truth arrive, in either order and with anything for other
identifiers around them, is compared once, the match with the ground truth. -/
theorem paired (i : I) (v g : V) (ignore : Bool) (es : List (Event I V))
    (h : es.filter (fun e => decide (e.key = i)) = [.hit i v, .truth i g] ∨
      es.filter (fun e => decide (e.key = i)) = [.truth i g, .hit i v]) :
    (finish ignore (run es)).log.filter (fun e => decide (e.1 = i)) = [(i, some v, g)] := by
  have := log_only i ignore es
  unfold only at this
  rw [this]
  rcases h with h | h <;> rw [h] <;> cases ignore <;> simp [run, pass, passMatch, passCompare, find, emplace, erase, finish]

/-- **C38.**  A ground truth without match is compared once with the empty match, or not at all if that is to be ignored. -/
theorem unmatched (i : I) (g : V) (ignore : Bool) (es : List (Event I V))
    (h : es.filter (fun e => decide (e.key = i)) = [.truth i g]) :
    (finish ignore (run es)).log.filter (fun e => decide (e.1 = i)) = if ignore then [] else [(i, none, g)] := by
  have := log_only i ignore es
  unfold only at this
  rw [this, h]
  cases ignore <;> simp [run, pass, passCompare, find, emplace, finish]

/-- Only the ground truths of an identifier can be compared. -/
theorem log_sublist (es : List (Event I V)) : ∀ (st : State I V) (i : I), (∀ j, (only j st.compares).length ≤ 1) →
    (only i (es.foldl pass st).log).length + (only i (es.foldl pass st).compares).length ≤
      (only i st.log).length + (only i st.compares).length + (es.filter (fun e => match e with | .hit _ _ => false | .truth k _ => decide (k = i))).length := by
  have herase : ∀ (m : List (I × V)) (i k : I), (only i (erase m k)).length = if k = i then 0 else (only i m).length := by
    intro m i k
    by_cases h : k = i
    · subst h
      rw [if_pos rfl]
      simp only [only, erase, List.filter_filter, List.length_eq_zero_iff, List.filter_eq_nil_iff]
      intro e _
      by_cases he : e.1 = k <;> simp [he]
    · rw [if_neg h, only_erase_ne _ h]
  have hfind : ∀ (m : List (I × V)) (i : I), (find m i = none ↔ (only i m).length = 0) := by
    intro m i
    simp [find, only, List.filter_eq_nil_iff]
  have hemp : ∀ (m : List (I × V)) (i k : I) (v : V), (only i (emplace m k v)).length =
      (only i m).length + if k = i ∧ (only i m).length = 0 then 1 else 0 := by
    intro m i k v
    by_cases h : k = i
    · subst h
      unfold emplace
      cases hf : find m k with
      | none =>
        have h0 := (hfind m k).1 hf
        have h1 : (only k (m ++ [(k, v)])).length = (only k m).length + 1 := by simp [only]
        simp [h1, h0]
      | some w =>
        have h0 : ¬ (only k m).length = 0 := fun h0 => by rw [(hfind m k).2 h0] at hf; simp at hf
        simp [h0]
    · rw [only_emplace_ne _ h]
      simp [h]
  induction es with
  | nil => intro st i _; simp
  | cons e es ih =>
    intro st i hone
    rw [List.foldl_cons]
    cases e with
    | hit k v =>
      simp only [pass, passMatch, List.filter_cons]
      cases hf : find st.compares k with
      | none => exact ih { st with hits := emplace st.hits k v } i hone
      | some g =>
        have hk : (only k st.compares).length ≠ 0 := fun h0 => by rw [(hfind _ k).2 h0] at hf; simp at hf
        simp only
        have h1 := ih { st with log := st.log ++ [(k, some v, g)], compares := erase st.compares k } i (by
          intro j
          simp only [herase]
          have := hone j
          split <;> omega)
        simp only [herase] at h1
        refine Nat.le_trans h1 ?_
        by_cases h : k = i
        · subst h
          simp only [only, List.filter_append, List.length_append, if_true] at hk ⊢
          simp
          have : 0 < (List.filter (fun e => decide (e.1 = k)) st.compares).length := Nat.pos_of_ne_zero hk
          omega
        · simp [only, h]
    | truth k g =>
      simp only [pass, passCompare, List.filter_cons]
      cases hf : find st.hits k with
      | none =>
        simp only
        have h1 := ih { st with compares := emplace st.compares k g } i (by
          intro j
          simp only [hemp]
          have := hone j
          split <;> omega)
        simp only [hemp] at h1
        refine Nat.le_trans h1 ?_
        by_cases h : k = i
        · simp only [h, true_and, decide_true, if_true, List.length_cons]
          split <;> omega
        · simp [h]
      | some v =>
        simp only
        refine Nat.le_trans (ih { st with log := st.log ++ [(k, some v, g)], hits := erase st.hits k } i hone) ?_
        by_cases h : k = i
        · subst h
          simp [only]
          omega
        · simp [only, h]

/-- **C38.**  Nothing else is compared: each comparison is one of a ground truth that arrived, with a match that arrived for the
same identifier or with the empty match; each identifier has at most as many comparisons as ground truths. -/
theorem nothing_else (ignore : Bool) (es : List (Event I V)) :
    (∀ i m g, (i, m, g) ∈ (finish ignore (run es)).log → .truth i g ∈ es ∧ ∀ v, m = some v → .hit i v ∈ es) ∧
    (∀ i, ((finish ignore (run es)).log.filter (fun e => decide (e.1 = i))).length ≤
      (es.filter (fun e => match e with | .hit _ _ => false | .truth k _ => decide (k = i))).length) := by
  constructor
  · -- invariant
    have hf : ∀ {m : List (I × V)} {i : I} {v : V}, find m i = some v → (i, v) ∈ m := by
      intro m i v h
      unfold find at h
      rw [Option.map_eq_some_iff] at h
      obtain ⟨e, he, rfl⟩ := h
      have h1 := List.mem_of_find?_eq_some he
      have h2 := List.find?_some he
      simp only [decide_eq_true_eq] at h2
      rw [← h2]
      exact h1
    have hemp : ∀ {m : List (I × V)} {i : I} {v : V} {e : I × V}, e ∈ emplace m i v → e ∈ m ∨ e = (i, v) := by
      intro m i v e h
      unfold emplace at h
      split at h
      · exact .inl h
      · simpa using h
    have key : ∀ (es' : List (Event I V)) (st : State I V), (∀ e ∈ es', e ∈ es) →
        ((∀ e ∈ st.hits, .hit e.1 e.2 ∈ es) ∧ (∀ e ∈ st.compares, .truth e.1 e.2 ∈ es) ∧
          ∀ i m g, (i, m, g) ∈ st.log → .truth i g ∈ es ∧ ∀ v, m = some v → .hit i v ∈ es) →
        ((∀ e ∈ (es'.foldl pass st).hits, .hit e.1 e.2 ∈ es) ∧ (∀ e ∈ (es'.foldl pass st).compares, .truth e.1 e.2 ∈ es) ∧
          ∀ i m g, (i, m, g) ∈ (es'.foldl pass st).log → .truth i g ∈ es ∧ ∀ v, m = some v → .hit i v ∈ es) := by
      intro es'
      induction es' with
      | nil => intro st _ h; exact h
      | cons e es' ih =>
        intro st hsub ⟨h1, h2, h3⟩
        rw [List.foldl_cons]
        apply ih _ (fun e he => hsub e (List.mem_cons_of_mem _ he))
        have he := hsub e (List.mem_cons_self ..)
        cases e with
        | hit k v =>
          simp only [pass, passMatch]
          cases hfk : find st.compares k with
          | none =>
            refine ⟨?_, h2, h3⟩
            intro e hee
            rcases hemp hee with h | rfl
            · exact h1 e h
            · exact he
          | some g =>
            refine ⟨h1, fun e hee => h2 e (List.mem_of_mem_filter hee), ?_⟩
            intro i m g' hl
            rcases List.mem_append.1 hl with hl | hl
            · exact h3 i m g' hl
            · simp only [List.mem_singleton, Prod.mk.injEq] at hl
              obtain ⟨rfl, rfl, rfl⟩ := hl
              exact ⟨h2 _ (hf hfk), fun w hw => by cases hw; exact he⟩
        | truth k g =>
          simp only [pass, passCompare]
          cases hfk : find st.hits k with
          | none =>
            refine ⟨h1, ?_, h3⟩
            intro e hee
            rcases hemp hee with h | rfl
            · exact h2 e h
            · exact he
          | some v =>
            refine ⟨fun e hee => h1 e (List.mem_of_mem_filter hee), h2, ?_⟩
            intro i m g' hl
            rcases List.mem_append.1 hl with hl | hl
            · exact h3 i m g' hl
            · simp only [List.mem_singleton, Prod.mk.injEq] at hl
              obtain ⟨rfl, rfl, rfl⟩ := hl
              exact ⟨he, fun w hw => by cases hw; exact h1 _ (hf hfk)⟩
    obtain ⟨_, k2, k3⟩ := key es ⟨[], [], []⟩ (fun _ h => h) (by simp)
    intro i m g hl
    unfold finish at hl
    split at hl
    · exact k3 i m g hl
    · rcases List.mem_append.1 hl with hl | hl
      · exact k3 i m g hl
      · rw [List.mem_map] at hl
        obtain ⟨e, he, heq⟩ := hl
        simp only [Prod.mk.injEq] at heq
        obtain ⟨rfl, rfl, rfl⟩ := heq
        exact ⟨k2 e he, by simp⟩
  · intro i
    have h := log_sublist es ⟨[], [], []⟩ i (by simp [only])
    simp only [only, List.filter_nil, List.length_nil, Nat.zero_add] at h
    refine Nat.le_trans ?_ h
    unfold finish run
    split
    · omega
    · rw [List.filter_append, List.length_append, List.filter_map, List.length_map]
      exact Nat.le_refl _

/-- Two identifiers crossing each other, one without match. -/
example : (finish false (run [.truth 1 10, .hit 2 20, .truth 3 30, .hit 1 11, .truth 2 21])).log =
    [(1, some 11, 10), (2, some 20, 21), (3, none, 30)] := by decide

/-- Outside of the property: of two pending ground truths with the same identifier the second is never compared. -/
theorem repeated_dropped : (finish false (run [.truth 1 10, .truth 1 12, .hit 1 11])).log = [(1, some 11, 10)] := by decide

end MM.Forwarder
