import Verif.Model.Viterbi
import Mathlib.Order.WithBot
import Mathlib.Order.Nat
import Mathlib.Algebra.Order.Monoid.WithTop
import Mathlib.Algebra.Order.Ring.Nat
import Mathlib.Data.List.Induction

/-! # Property theorem C13 (Viterbi decoding) -/

set_option autoImplicit false
set_option linter.unusedSectionVars false

namespace MM.Viterbi

variable {P : Type} [LinearOrder P] [OrderBot P]

/-! ## Specification -/

/-- The sum is monotone in the probability so far, and an impossible past stays impossible. Holds for exact and for
rounded addition of numbers and minus infinity. -/
structure Lawful (h : Hmm P) : Prop where
  mono : ∀ a b x y, a ≤ b → h.add3 a x y ≤ h.add3 b x y
  absorb : ∀ x y, h.add3 ⊥ x y = ⊥

/-- Joint probability of the candidate sequence `σ` at times `t0 .. t`: initial probability, then one transition
and observation after the other.  A track whose first points have no candidates starts at a later `t0`. -/
def joint (h : Hmm P) (t0 : Nat) (σ : Nat → Nat) : Nat → P
  | 0 => h.add (h.tr 0 (σ 0) 0) (h.obs 0 (σ 0))
  | t + 1 =>
    if t + 1 = t0 then h.add (h.late t0) (h.obs t0 (σ t0))
    else h.add3 (joint h t0 σ t) (h.tr (t + 1) (σ (t + 1)) (σ t)) (h.obs (t + 1) (σ (t + 1)))

/-- `σ` chooses an existing candidate at each of the times `t0 .. t`. -/
def Valid (h : Hmm P) (t0 t : Nat) (σ : Nat → Nat) : Prop := ∀ s, t0 ≤ s → s ≤ t → σ s < h.n s

/-- `t0` is the first time with a candidate. -/
def Starts (h : Hmm P) (t0 : Nat) : Prop := 0 < h.n t0 ∧ ∀ s, s < t0 → h.n s = 0

/-! ## Helper lemmas -/

theorem argmax_spec (f : Nat → P) (n : Nat) :
    (∀ i < n, f i ≤ (argmax f n).1) ∧
    ((argmax f n).2 = none → (argmax f n).1 = ⊥) ∧
    (∀ k, (argmax f n).2 = some k → k < n ∧ f k = (argmax f n).1 ∧ ⊥ < f k) := by
  induction n with
  | zero => simp [argmax]
  | succ n ih =>
    obtain ⟨h1, h2, h3⟩ := ih
    unfold argmax
    split
    · rename_i hlt
      refine ⟨?_, by simp, ?_⟩
      · intro i hi
        rcases Nat.lt_succ_iff_lt_or_eq.1 hi with hi | rfl
        · exact le_of_lt (lt_of_le_of_lt (h1 i hi) hlt)
        · exact le_refl _
      · intro k hk
        simp only [Option.some.injEq] at hk
        subst hk
        exact ⟨Nat.lt_succ_self _, rfl, lt_of_le_of_lt bot_le hlt⟩
    · rename_i hlt
      refine ⟨?_, h2, ?_⟩
      · intro i hi
        rcases Nat.lt_succ_iff_lt_or_eq.1 hi with hi | rfl
        · exact h1 i hi
        · exact not_lt.1 hlt
      · intro k hk
        obtain ⟨h4, h5⟩ := h3 k hk
        exact ⟨Nat.lt_succ_of_lt h4, h5⟩

theorem argmax_none {f : Nat → P} {n : Nat} (h : (argmax f n).2 = none) : ∀ i < n, f i = ⊥ := by
  obtain ⟨h1, h2, -⟩ := argmax_spec f n
  intro i hi
  have := h1 i hi
  rw [h2 h] at this
  exact le_bot_iff.1 this

theorem argmax_some {f : Nat → P} {n k : Nat} (h : (argmax f n).2 = some k) :
    k < n ∧ ⊥ < f k ∧ ∀ i < n, f i ≤ f k := by
  obtain ⟨h1, -, h3⟩ := argmax_spec f n
  obtain ⟨h4, h5, h6⟩ := h3 k h
  exact ⟨h4, h6, fun i hi => h5 ▸ h1 i hi⟩

variable {h : Hmm P}

theorem not_init {t0 : Nat} (hs : Starts h t0) : ∀ t, t < t0 → (row h t).init = false := by
  intro t
  induction t with
  | zero => intro ht; simp [row, hs.2 0 ht]
  | succ t ih => intro ht; simp [row, ih (by omega), hs.2 _ ht]

theorem init_at {t0 : Nat} (hs : Starts h t0) : ∀ t, t0 ≤ t → (row h t).init = true := by
  intro t ht
  induction t with
  | zero =>
    have : t0 = 0 := by omega
    subst this
    simp [row, hs.1]
  | succ t ih =>
    by_cases hle : t0 ≤ t
    · simp [row, ih hle]
    · have : t0 = t + 1 := by omega
      subst this
      simp only [row, Bool.or_eq_true, List.any_eq_true, List.mem_range]
      right
      refine ⟨0, hs.1, ?_⟩
      have hn : h.n t = 0 := hs.2 t (by omega)
      simp [chosen, hn, argmax]

theorem chosen_start {t0 : Nat} (hs : Starts h (t0 + 1)) (p : Nat → P) (g : Nat) : chosen h p (t0 + 1) g = none := by
  simp [chosen, hs.2 t0 (by omega), argmax]

/-- No sequence is better than the entry of its last candidate. -/
theorem joint_le (hl : Lawful h) {t0 : Nat} (hs : Starts h t0) (σ : Nat → Nat) : ∀ t, t0 ≤ t → Valid h t0 t σ →
    joint h t0 σ t ≤ (row h t).T (σ t) := by
  intro t
  induction t with
  | zero => intro _ _; simp [joint, row]
  | succ t ih =>
    intro ht hv
    by_cases hle : t0 ≤ t
    · have hne : ¬ (t + 1 = t0) := by omega
      have hih := ih hle (fun s h1 h2 => hv s h1 (by omega))
      have hσ := hv t hle (by omega)
      simp only [joint, hne, if_false, row, entry]
      have hthr : h.add3 (joint h t0 σ t) (h.tr (t + 1) (σ (t + 1)) (σ t)) (h.obs (t + 1) (σ (t + 1))) ≤
          through h (row h t).T (t + 1) (σ (t + 1)) (σ t) := hl.mono _ _ _ _ hih
      cases hc : chosen h (row h t).T (t + 1) (σ (t + 1)) with
      | none =>
        have := argmax_none hc (σ t) hσ
        rw [this] at hthr
        exact le_trans hthr bot_le
      | some k => exact le_trans hthr ((argmax_some hc).2.2 (σ t) hσ)
    · have : t0 = t + 1 := by omega
      subst this
      simp only [joint, if_true, row, entry]
      rw [chosen_start hs]
      simp [not_init hs t (by omega)]

theorem backtrack_none (t : Nat) : backtrack h t none = List.replicate (t + 1) none := by
  induction t with
  | zero => rfl
  | succ t ih => simp [backtrack, ih, List.replicate_succ' (n := t + 1)]

/-- Backtracking from an entry above minus infinity gives a sequence whose joint probability is that entry. -/
theorem backtrack_spec (hl : Lawful h) {t0 : Nat} (hs : Starts h t0) : ∀ t, t0 ≤ t → ∀ g, g < h.n t →
    ⊥ < (row h t).T g →
    ∃ σ, Valid h t0 t σ ∧ σ t = g ∧ joint h t0 σ t = (row h t).T g ∧
      backtrack h t (some g) = List.replicate t0 none ++ (List.range' t0 (t + 1 - t0)).map (fun s => some (σ s)) := by
  intro t
  induction t with
  | zero =>
    intro ht g hg _
    have : t0 = 0 := by omega
    subst this
    refine ⟨fun _ => g, ?_, rfl, rfl, by simp [backtrack, List.range']⟩
    intro s _ h2
    have : s = 0 := by omega
    subst this; exact hg
  | succ t ih =>
    intro ht g hg hpos
    by_cases hle : t0 ≤ t
    · have hne : ¬ (t + 1 = t0) := by omega
      cases hc : chosen h (row h t).T (t + 1) g with
      | none =>
        simp only [row, entry, hc, init_at hs t hle, if_true] at hpos
        exact absurd hpos (lt_irrefl _)
      | some k =>
        obtain ⟨hk1, hk2, -⟩ := argmax_some hc
        have hk1 : k < h.n t := hk1
        have hTk : ⊥ < (row h t).T k := by
          rw [bot_lt_iff_ne_bot]
          intro hb
          simp only [through, hb, hl.absorb] at hk2
          exact lt_irrefl _ hk2
        obtain ⟨σ, hv, hσ, hj, hb⟩ := ih hle k hk1 hTk
        refine ⟨fun s => if s = t + 1 then g else σ s, ?_, by simp, ?_, ?_⟩
        · intro s h1 h2
          by_cases hst : s = t + 1
          · subst hst; simpa using hg
          · simpa [hst] using hv s h1 (by omega)
        · have hcongr : ∀ u, u ≤ t → joint h t0 (fun s => if s = t + 1 then g else σ s) u = joint h t0 σ u := by
            intro u
            induction u with
            | zero => intro _; simp [joint]
            | succ u ihu =>
              intro hu
              simp only [joint]
              have e1 : ¬ (u = t) := by omega
              have e2 : ¬ (u = t + 1) := by omega
              have e3 : ¬ (t0 = t + 1) := by omega
              simp only [e2, e3, if_false, Nat.add_right_cancel_iff, e1]
              rw [ihu (by omega)]
          have et : ¬ (t = t + 1) := by omega
          simp only [joint, hne, if_false, if_true, et]
          rw [hcongr t (le_refl _), hj]
          simp only [row, entry, hc, through, hσ]
        · simp only [backtrack]
          rw [show (some g).bind (row h (t + 1)).K = some k from hc, hb, List.append_assoc]
          congr 1
          rw [show t + 1 + 1 - t0 = (t + 1 - t0) + 1 by omega, List.range'_1_concat, List.map_append]
          congr 1
          · apply List.map_congr_left
            intro s hs
            have := List.mem_range'_1.1 hs
            have : ¬ (s = t + 1) := by omega
            simp [this]
          · have : t0 + (t + 1 - t0) = t + 1 := by omega
            simp [this]
    · have : t0 = t + 1 := by omega
      subst this
      refine ⟨fun _ => g, ?_, rfl, ?_, ?_⟩
      · intro s h1 h2
        have : s = t + 1 := by omega
        subst this; exact hg
      · simp [joint, row, entry, chosen_start hs, not_init hs t (by omega)]
      · simp only [backtrack]
        rw [show (some g).bind (row h (t + 1)).K = none from chosen_start hs _ g, backtrack_none]
        simp [List.range']

theorem policy_replicate (n : Nat) (i : Nat) : ((List.replicate n (none : Option Nat)).zipIdx i).filterMap
    (fun p => p.1.map (fun k => (p.2, k))) = [] := by
  induction n generalizing i with
  | zero => rfl
  | succ n ih => simp [List.replicate_succ, ih]

theorem policy_some (σ : Nat → Nat) (n : Nat) : ∀ i, (((List.range' i n).map (fun s => some (σ s))).zipIdx i).filterMap
    (fun p => p.1.map (fun k => (p.2, k))) = (List.range' i n).map (fun s => (s, σ s)) := by
  induction n with
  | zero => intro i; rfl
  | succ n ih => intro i; simp [List.range'_succ, ih]

/-! ## The property -/

/-- **C13.** Let `t0` be the first time with a candidate.  If some sequence of candidates has positive probability,
then the decoder returns exactly one candidate for every time from `t0` on, and no sequence of candidates has a
higher joint probability than the returned one.  Holds for any number of steps and candidates, any matrices, and any
monotone addition (exact or rounded). -/
theorem viterbi_optimal (h : Hmm P) (hl : Lawful h) (t0 : Nat) (hs : Starts h t0) (ht : t0 < h.len)
    (hpos : ∃ σ, Valid h t0 (h.len - 1) σ ∧ ⊥ < joint h t0 σ (h.len - 1)) :
    ∃ σ, policy h = (List.range' t0 (h.len - t0)).map (fun t => (t, σ t)) ∧ Valid h t0 (h.len - 1) σ ∧
      ∀ σ', Valid h t0 (h.len - 1) σ' → joint h t0 σ' (h.len - 1) ≤ joint h t0 σ (h.len - 1) := by
  obtain ⟨σ₀, hv₀, hp₀⟩ := hpos
  obtain ⟨t, hlen⟩ : ∃ t, h.len = t + 1 := ⟨h.len - 1, by omega⟩
  simp only [hlen, Nat.add_sub_cancel] at ht hv₀ hp₀ ⊢
  have htt : t0 ≤ t := by omega
  have hT₀ := lt_of_lt_of_le hp₀ (joint_le hl hs σ₀ t htt hv₀)
  cases hc : (argmax (row h t).T (h.n t)).2 with
  | none =>
    rw [argmax_none hc (σ₀ t) (hv₀ t htt (le_refl _))] at hT₀
    exact absurd hT₀ (lt_irrefl _)
  | some g =>
    obtain ⟨hg, hgp, hmax⟩ := argmax_some hc
    obtain ⟨σ, hv, hσ, hj, hb⟩ := backtrack_spec hl hs t htt g hg hgp
    refine ⟨σ, ?_, hv, ?_⟩
    · simp only [policy, selections, hlen, hc]
      rw [hb, List.zipIdx_append, List.filterMap_append, policy_replicate]
      simp [policy_some]
    · intro σ' hv'
      rw [hj]
      exact le_trans (joint_le hl hs σ' t htt hv') (hmax (σ' t) (hv' t htt (le_refl _)))

/-- **C13.** Conversely, if no sequence has positive probability the decoder returns nothing: it never returns a
partial or impossible sequence. -/
theorem viterbi_empty (h : Hmm P) (hl : Lawful h) (t0 : Nat) (hs : Starts h t0) (ht : t0 < h.len)
    (hneg : ∀ σ, Valid h t0 (h.len - 1) σ → joint h t0 σ (h.len - 1) = ⊥) : policy h = [] := by
  obtain ⟨t, hlen⟩ : ∃ t, h.len = t + 1 := ⟨h.len - 1, by omega⟩
  simp only [hlen, Nat.add_sub_cancel] at ht hneg
  have htt : t0 ≤ t := by omega
  cases hc : (argmax (row h t).T (h.n t)).2 with
  | none =>
    simp only [policy, selections, hlen, hc, backtrack_none]
    exact policy_replicate _ _
  | some g =>
    obtain ⟨hg, hgp, -⟩ := argmax_some hc
    obtain ⟨σ, hv, -, hj, -⟩ := backtrack_spec hl hs t htt g hg hgp
    rw [← hj, hneg σ hv] at hgp
    exact absurd hgp (lt_irrefl _)

/-- A first point without candidates, then three steps with two candidates; numbers are shifted so that a larger value
is more likely and `⊥` is impossible. -/
def demo : Hmm (WithBot Nat) where
  len := 4
  n := fun | 0 => 0 | _ => 2
  obs := fun t g => ((t + 2 * g : Nat) : WithBot Nat)
  tr := fun t g s => if t = 3 ∧ g = 1 ∧ s = 1 then ⊥ else ((5 * s : Nat) : WithBot Nat)
  late := fun _ => ((1 : Nat) : WithBot Nat)
  add := fun a b => a + b
  add3 := fun a b c => a + b + c

example : Lawful demo ∧ Starts demo 1 ∧ Valid demo 1 3 (fun t => if t = 3 then 0 else 1) ∧
    joint demo 1 (fun t => if t = 3 then 0 else 1) 3 = ((21 : Nat) : WithBot Nat) ∧
    policy demo = [(1, 1), (2, 1), (3, 0)] := by
  refine ⟨⟨?_, ?_⟩, ⟨by decide, ?_⟩, ?_, by decide, by decide⟩
  · intro a b x y hab; exact add_le_add (add_le_add hab le_rfl) le_rfl
  · intro x y; simp [demo]
  · intro s hs; have : s = 0 := by omega
    subst this; rfl
  · intro s h1 h2
    have : demo.n s = 2 := by
      match s, h1 with
      | s + 1, _ => rfl
    rw [this]; dsimp only; split <;> omega

end MM.Viterbi
