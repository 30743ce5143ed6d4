import Verif.Proofs.LearnProc
import Verif.Props.Env
import Mathlib.Tactic.NormNum
import Mathlib.Tactic.Ring
import Mathlib.Data.Rat.Cast.Order

/-!
# C16, C17, C18: the learners

Exact arithmetic in an ordered commutative ring.  `Episode` is the specification: a sequence of offered actions up to
one that ends the episode, with its discounted return.
-/

set_option autoImplicit false
set_option linter.unusedSectionVars false

namespace MM.Learn

variable {R : Type} [CommRing R] [LinearOrder R] [IsStrictOrderedRing R]

/-- A complete episode from a state: visited states with the actions taken, and the discounted return. -/
inductive Episode (p : Proc R) (γ : R) : Nat → List (Nat × Nat) → R → Prop
  | last {s a : Nat} : a ∈ p.actions s → p.done s a = true → Episode p γ s [(s, a)] (p.reward s a)
  | step {s a : Nat} {l : List (Nat × Nat)} {r : R} : a ∈ p.actions s → p.done s a = false →
      Episode p γ (p.next s a) l r → Episode p γ s ((s, a) :: l) (p.reward s a + γ * r)

variable {p : Proc R} {γ : R} {S : List Nat} {rank : Nat → Nat}

theorem episode_le (hγ : 0 ≤ γ) (hne : ∀ s, p.actions s ≠ []) (hc : Closed p S) {V : Nat → R}
    (hV : ∀ s ∈ S, bestVal p γ V s = V s) {s : Nat} {l : List (Nat × Nat)} {r : R} (he : Episode p γ s l r)
    (hs : s ∈ S) : r ≤ V s := by
  induction he with
  | @last s a ha hd =>
    obtain ⟨-, -, -, -, h2⟩ := bestVal_spec (γ := γ) hne V s
    rw [← hV s hs]
    refine le_trans (le_of_eq ?_) (h2 a ha)
    simp [qval, hd]
  | @step s a l r ha hd _ ih =>
    obtain ⟨-, -, -, -, h2⟩ := bestVal_spec (γ := γ) hne V s
    rw [← hV s hs]
    refine le_trans ?_ (h2 a ha)
    have := mul_le_mul_of_nonneg_left (ih (hc s hs a ha hd)) hγ
    simp only [qval, hd, Bool.false_eq_true, if_false]
    linarith

theorem viExtract_spec (hne : ∀ s, p.actions s ≠ []) (hc : Closed p S) {V : Nat → R}
    (hV : ∀ s ∈ S, bestVal p γ V s = V s) : ∀ (k s : Nat) (l : List (Nat × Nat)), s ∈ S →
    viExtract p γ V k s = some l → Episode p γ s l (V s) := by
  intro k
  induction k with
  | zero => intro s l _ h; cases h
  | succ k ih =>
    intro s l hs h
    obtain ⟨a, ha, h1, h2, -⟩ := bestVal_spec (γ := γ) hne V s
    unfold viExtract at h
    rw [h1] at h
    simp only at h
    rw [hV s hs] at h2
    cases hd : p.done s a with
    | true =>
      rw [hd] at h
      simp only [if_true, Option.some.injEq] at h
      subst h
      have : V s = p.reward s a := by rw [h2]; simp [qval, hd]
      rw [this]
      exact .last ha hd
    | false =>
      rw [hd] at h
      simp only [Bool.false_eq_true, if_false, Option.map_eq_some_iff] at h
      obtain ⟨l', h3, rfl⟩ := h
      have : V s = p.reward s a + γ * V (p.next s a) := by rw [h2]; simp [qval, hd]
      rw [this]
      exact .step ha hd (ih _ _ (hc s hs a ha hd) h3)

theorem viExtract_stops (hr : Acyclic p rank) (hne : ∀ s, p.actions s ≠ []) (V : Nat → R) : ∀ (k s : Nat),
    rank s < k → ∃ l, viExtract p γ V k s = some l := by
  intro k
  induction k with
  | zero => intro s h; omega
  | succ k ih =>
    intro s hs
    obtain ⟨a, ha, h1, -, -⟩ := bestVal_spec (γ := γ) hne V s
    unfold viExtract
    rw [h1]
    simp only
    cases hd : p.done s a with
    | true => exact ⟨_, rfl⟩
    | false =>
      simp only [Bool.false_eq_true, if_false]
      obtain ⟨l, hl⟩ := ih (p.next s a) (by have := hr s a ha hd; omega)
      exact ⟨_, by rw [hl]; rfl⟩

/-! ### C16 -/

/-- **C16, termination.**  Whatever the rewards, the discount and the (non-negative) threshold, value iteration on an
acyclic process comes to an end: from some number of rounds on there is a result. -/
theorem value_iteration_terminates (hr : Acyclic p rank) (hne : ∀ s, p.actions s ≠ []) {th : R} (hth : 0 ≤ th)
    (start : Nat) : ∃ K, ∀ k, K ≤ k → ∃ l, valueIteration p γ th k start = some l := by
  obtain ⟨k1, S, hS⟩ := generate_stops hr start
  obtain ⟨hn, hc, hst⟩ := generate_spec hS
  obtain ⟨k2, V, hV⟩ := loop_stops ((best_ranked (γ := γ) hr hc).reverse) (List.nodup_reverse.2 hn) hth (fun _ => 0) 0
  refine ⟨max (max k1 k2) (rank start + 1), fun k hk => ?_⟩
  obtain ⟨l, hl⟩ := viExtract_stops (γ := γ) hr hne V k start (by omega)
  refine ⟨l, ?_⟩
  unfold valueIteration
  rw [generate_mono (by omega) hS]
  simp only [Option.bind_some]
  have : (fun V => viSweep p γ S.reverse (V, 0)) = fun V => gSweep (bestVal p γ) S.reverse (V, 0) := by
    funext V; exact viSweep_eq hne _ _
  rw [this, untilSmall_mono (by omega) hV]
  exact hl

theorem sum_const_zero (l : List Nat) : (l.map (fun _ => (0 : R))).sum = 0 := by
  induction l with
  | nil => rfl
  | cons s ss ih => simp only [List.map_cons, List.sum_cons, ih, add_zero]

/-- **C16, optimality.**  With a zero threshold and rewards that are never positive (as the environment's are for
non-negative factors) every result is an episode with the largest return of all episodes.
Missing from the full property: rewards of both signs, for which it is false (`value_iteration_optimal_fails`). -/
theorem value_iteration_optimal_partial (hne : ∀ s, p.actions s ≠ [])
    (hγ : 0 ≤ γ) (hrew : ∀ s a, p.reward s a ≤ 0) {k start : Nat} {l : List (Nat × Nat)}
    (h : valueIteration p γ 0 k start = some l) :
    ∃ r, Episode p γ start l r ∧ ∀ l' r', Episode p γ start l' r' → r' ≤ r := by
  unfold valueIteration at h
  rw [Option.bind_eq_some_iff] at h
  obtain ⟨S, hS, h⟩ := h
  rw [Option.bind_eq_some_iff] at h
  obtain ⟨V, hV, h⟩ := h
  obtain ⟨hn, hc, hst⟩ := generate_spec hS
  have : (fun V => viSweep p γ S.reverse (V, 0)) = fun V => gSweep (bestVal p γ) S.reverse (V, 0) := by
    funext V; exact viSweep_eq hne _ _
  rw [this] at hV
  have hfix := loop_fix_down (best_mono hγ hne hc).reverse (List.nodup_reverse.2 hn) (V := fun _ => 0) (by
    intro s hs
    obtain ⟨a, ha, -, h1, -⟩ := bestVal_spec (γ := γ) hne (fun _ => 0) s
    rw [h1]
    exact qval_nonpos hγ hc hrew (fun _ _ => le_refl _) (by simpa using hs) ha) (sum_const_zero _).symm hV
  have hfix' : ∀ s ∈ S, bestVal p γ V s = V s := fun s hs => hfix s (by simp [hs])
  exact ⟨V start, viExtract_spec hne hc hfix' k start l hst h,
    fun l' r' he => episode_le hγ hne hc hfix' he hst⟩

/-- A process as the environment produces them: from state 1 the second edge is skipped to state 3, from which
state 2 is reached later; state 3 is listed after state 2, so that one sweep does not suffice. -/
def demo (x r0 z w : Int) : Proc Int where
  actions s := if s = 1 then [2, 3] else [2]
  next s a := if s = 0 then 1 else if s = 1 then (if a = 2 then 2 else 3) else if s = 2 then 4 else 2
  reward s a := if s = 0 then r0 else if s = 1 then (if a = 2 then x else 0) else if s = 2 then z else if s = 3 then w else 0
  done s _ := s == 2 || 4 ≤ s

def demoRank : Nat → Nat
  | 0 => 3
  | 1 => 2
  | 3 => 1
  | _ => 0

theorem demo_acyclic (x r0 z w : Int) : Acyclic (demo x r0 z w) demoRank := by
  intro s a ha hd
  match s with
  | 0 => simp [demo, demoRank]
  | 1 =>
    simp only [demo] at ha ⊢
    by_cases h : a = 2 <;> simp [h, demoRank]
  | 2 => simp [demo] at hd
  | 3 => simp [demo, demoRank]
  | s + 4 => simp [demo] at hd

theorem demo_ne (x r0 z w : Int) (s : Nat) : (demo x r0 z w).actions s ≠ [] := by
  unfold demo; simp only; split_ifs <;> simp

example : generate (demo (-1) (-2) (-5) 0) 9 0 = some [0, 1, 2, 3] ∧
    valueIteration (demo (-1) (-2) (-5) 0) 1 0 9 0 = some [(0, 2), (1, 3), (3, 2), (2, 2)] := by decide

/-- The hypotheses of both theorems are met. -/
example : Acyclic (demo (-1) (-2) (-5) 0) demoRank ∧ (∀ s, (demo (-1) (-2) (-5) 0).actions s ≠ []) ∧
    ∀ s a, (demo (-1) (-2) (-5) 0).reward s a ≤ 0 :=
  ⟨demo_acyclic _ _ _ _, demo_ne _ _ _ _, by intro s a; simp only [demo]; split_ifs <;> decide⟩

/-- **C16 fails** for rewards of both signs: the first sweep's values happen to sum to zero, the initial value of
`old_value`, so the loop ends with values that are not final and a worse episode is returned. -/
theorem value_iteration_optimal_fails :
    valueIteration (demo 1 2 (-2) 0) 1 0 9 0 = some [(0, 2), (1, 3), (3, 2), (2, 2)] ∧
    Episode (demo 1 2 (-2) 0) 1 0 [(0, 2), (1, 3), (3, 2), (2, 2)] 0 ∧
    Episode (demo 1 2 (-2) 0) 1 0 [(0, 2), (1, 2), (2, 2)] 1 := by
  refine ⟨by decide, ?_, ?_⟩
  · have h1 : Episode (demo 1 2 (-2) 0) 1 2 [(2, 2)] (-2) := .last (p := demo 1 2 (-2) 0) (s := 2) (a := 2) (by decide) rfl
    have h2 : Episode (demo 1 2 (-2) 0) 1 3 [(3, 2), (2, 2)] (-2) := .step (p := demo 1 2 (-2) 0) (s := 3) (a := 2) (by decide) rfl h1
    have h3 : Episode (demo 1 2 (-2) 0) 1 1 [(1, 3), (3, 2), (2, 2)] (-2) := .step (p := demo 1 2 (-2) 0) (s := 1) (a := 3) (by decide) rfl h2
    exact .step (p := demo 1 2 (-2) 0) (s := 0) (a := 2) (by decide) rfl h3
  · have h1 : Episode (demo 1 2 (-2) 0) 1 2 [(2, 2)] (-2) := .last (p := demo 1 2 (-2) 0) (s := 2) (a := 2) (by decide) rfl
    have h2 : Episode (demo 1 2 (-2) 0) 1 1 [(1, 2), (2, 2)] (-1) := .step (p := demo 1 2 (-2) 0) (s := 1) (a := 2) (by decide) rfl h1
    exact .step (p := demo 1 2 (-2) 0) (s := 0) (a := 2) (by decide) rfl h2

/-! ### C17 -/

theorem improved_mem (hne : ∀ s, p.actions s ≠ []) (V : Nat → R) (s old : Nat) :
    improved p γ V s old ∈ p.actions s ∧ qval p γ V s (improved p γ V s old) = bestVal p γ V s := by
  obtain ⟨a, ha, h1, h2, -⟩ := bestVal_spec (γ := γ) hne V s
  unfold improved
  rw [h1]
  exact ⟨ha, h2.symm⟩

/-- **C17, first half.**  Whenever policy iteration stops, for any threshold and rewards, no other action at any
state has a larger value under the computed values. -/
theorem policy_iteration_stable (hne : ∀ s, p.actions s ≠ []) {th : R} {evals : Nat} : ∀ (k : Nat) (V : Nat → R)
    (pol : Nat → Nat) (W : Nat → R) (pol' : Nat → Nat), piLoop p γ th S evals k V pol = some (W, pol') →
    ∀ s ∈ S, pol' s ∈ p.actions s ∧ ∀ a ∈ p.actions s, qval p γ W s a ≤ qval p γ W s (pol' s) := by
  intro k
  induction k with
  | zero => intro V pol W pol' h; cases h
  | succ k ih =>
    intro V pol W pol' h
    rw [piLoop, Option.bind_eq_some_iff] at h
    obtain ⟨V', -, h⟩ := h
    split_ifs at h with hst
    · simp only [Option.some.injEq, Prod.mk.injEq] at h
      obtain ⟨rfl, rfl⟩ := h
      intro s hs
      simp only [improve, hs, if_true]
      obtain ⟨h1, h2⟩ := improved_mem (γ := γ) hne V' s (pol s)
      obtain ⟨-, -, -, -, h3⟩ := bestVal_spec (γ := γ) hne V' s
      exact ⟨h1, fun a ha => by rw [h2]; exact h3 a ha⟩
    · exact ih _ _ _ _ h

theorem eval_eq (pol : Nat → Nat) : (fun V => piSweep p γ pol S.reverse (V, 0)) =
    fun V => gSweep (fun V s => qval p γ V s (pol s)) S.reverse (V, 0) := by
  funext V; exact piSweep_eq _ _ _

/-- Values before an evaluation: from below, or all zero in the first round. -/
def Ready (p : Proc R) (γ : R) (S : List Nat) (V : Nat → R) (pol : Nat → Nat) : Prop :=
  (∀ s ∈ S, pol s ∈ p.actions s) ∧
    ((V = fun _ => 0) ∨ ((∀ s ∈ S, V s ≤ 0) ∧ ∀ s ∈ S, V s ≤ qval p γ V s (pol s)))

theorem loop_nonpos {B : (Nat → R) → Nat → R} (hB : ∀ V : Nat → R, (∀ t ∈ S, V t ≤ 0) → ∀ s ∈ S, B V s ≤ 0)
    {V : Nat → R} (hV : ∀ t ∈ S, V t ≤ 0) {th v : R} {k : Nat} {W : Nat → R}
    (h : untilSmall (fun V => gSweep B S (V, 0)) th k V v none = some W) : ∀ t ∈ S, W t ≤ 0 := by
  obtain ⟨j, rfl, -⟩ := untilSmall_result _ _ _ _ _ (by intro d hd; cases hd) h
  generalize j + 1 = i
  induction i with
  | zero => exact hV
  | succ i ih => exact gSweep_nonpos hB (fun s hs => hs) _ 0 ih

theorem eval_fix (hγ : 0 ≤ γ) (hc : Closed p S) (hn : S.Nodup) (hrew : ∀ s a, p.reward s a ≤ 0) {V : Nat → R}
    {pol : Nat → Nat} (hR : Ready p γ S V pol) {k : Nat} {W : Nat → R}
    (h : untilSmall (fun V => piSweep p γ pol S.reverse (V, 0)) 0 k V 0 none = some W) :
    (∀ s ∈ S, qval p γ W s (pol s) = W s) ∧ (∀ s ∈ S, W s ≤ 0) ∧ ((V = fun _ => 0) ∨ ∀ s ∈ S, V s ≤ W s) := by
  rw [eval_eq] at h
  have hB : ∀ V : Nat → R, (∀ t ∈ S.reverse, V t ≤ 0) → ∀ s ∈ S.reverse, qval p γ V s (pol s) ≤ 0 := by
    intro V hV s hs
    have hs' : s ∈ S := by simpa using hs
    exact qval_nonpos hγ hc hrew (fun t ht => hV t (by simp [ht])) hs' (hR.1 s hs')
  rcases hR.2 with rfl | ⟨h1, h2⟩
  · have hfix := loop_fix_down (pol_mono hγ hc hR.1).reverse (List.nodup_reverse.2 hn) (V := fun _ => 0)
      (fun s hs => hB _ (fun _ _ => le_refl _) s hs) (sum_const_zero _).symm h
    have hnp := loop_nonpos hB (fun _ _ => le_refl _) h
    exact ⟨fun s hs => hfix s (by simp [hs]), fun s hs => hnp s (by simp [hs]), .inl rfl⟩
  · have := loop_fix_up (pol_mono hγ hc hR.1).reverse (List.nodup_reverse.2 hn) hB
      (fun t ht => h1 t (by simpa using ht)) (fun t ht => h2 t (by simpa using ht)) h
    exact ⟨fun s hs => this.1 s (by simp [hs]), fun s hs => this.2.2 s (by simp [hs]),
      .inr (fun s hs => this.2.1 s (by simp [hs]))⟩

theorem improve_ready (hne : ∀ s, p.actions s ≠ []) {W : Nat → R} {pol : Nat → Nat}
    (hp : ∀ s ∈ S, pol s ∈ p.actions s) (h1 : ∀ s ∈ S, qval p γ W s (pol s) = W s) (h2 : ∀ s ∈ S, W s ≤ 0) :
    Ready p γ S W (improve p γ W S pol).1 := by
  refine ⟨?_, .inr ⟨h2, ?_⟩⟩
  · intro s hs
    simp only [improve, hs, if_true]
    exact (improved_mem (γ := γ) hne W s (pol s)).1
  · intro s hs
    simp only [improve, hs, if_true]
    rw [(improved_mem (γ := γ) hne W s (pol s)).2]
    obtain ⟨-, -, -, -, h3⟩ := bestVal_spec (γ := γ) hne W s
    calc W s = qval p γ W s (pol s) := (h1 s hs).symm
      _ ≤ _ := h3 _ (hp s hs)

theorem piLoop_fix (hne : ∀ s, p.actions s ≠ []) (hγ : 0 ≤ γ) (hc : Closed p S) (hn : S.Nodup)
    (hrew : ∀ s a, p.reward s a ≤ 0) {evals : Nat} : ∀ (k : Nat) (V : Nat → R)
    (pol : Nat → Nat) (W : Nat → R) (pol' : Nat → Nat), Ready p γ S V pol → piLoop p γ 0 S evals k V pol = some (W, pol') →
    ∀ s ∈ S, pol' s ∈ p.actions s ∧ qval p γ W s (pol' s) = W s ∧ bestVal p γ W s = W s := by
  intro k
  induction k with
  | zero => intro V pol W pol' _ h; cases h
  | succ k ih =>
    intro V pol W pol' hR h
    rw [piLoop, Option.bind_eq_some_iff] at h
    obtain ⟨V', hV', h⟩ := h
    obtain ⟨h1, h2, -⟩ := eval_fix hγ hc hn hrew hR hV'
    split_ifs at h with hst
    · simp only [Option.some.injEq, Prod.mk.injEq] at h
      obtain ⟨rfl, rfl⟩ := h
      intro s hs
      have hsame : improved p γ V' s (pol s) = pol s := (of_decide_eq_true hst) s hs
      have hb := (improved_mem (γ := γ) hne V' s (pol s)).2
      simp only [improve, hs, if_true]
      rw [hsame] at hb ⊢
      exact ⟨hR.1 s hs, h1 s hs, by rw [← hb]; exact h1 s hs⟩
    · exact ih _ _ _ _ (improve_ready hne hR.1 h1 h2) h

theorem first_ready (hne : ∀ s, p.actions s ≠ []) : Ready p γ S (fun _ => 0) (firstPolicy p S) := by
  refine ⟨?_, .inl rfl⟩
  intro s hs
  simp only [firstPolicy, hs, if_true]
  cases ha : p.actions s with
  | nil => exact absurd ha (hne s)
  | cons a as => simp

theorem piExtract_spec (hc : Closed p S) {W : Nat → R} {pol : Nat → Nat} (hne : ∀ s, p.actions s ≠ [])
    (hp : ∀ s ∈ S, pol s ∈ p.actions s ∧ qval p γ W s (pol s) = W s) : ∀ (k s : Nat) (l : List (Nat × Nat)), s ∈ S →
    piExtract p pol k s = some l → Episode p γ s l (W s) := by
  intro k
  induction k with
  | zero => intro s l _ h; cases h
  | succ k ih =>
    intro s l hs h
    obtain ⟨ha, hq⟩ := hp s hs
    rw [piExtract, if_neg (hne s)] at h
    cases hd : p.done s (pol s) with
    | true =>
      rw [hd] at h
      simp only [if_true, Option.some.injEq] at h
      subst h
      have : W s = p.reward s (pol s) := by rw [← hq]; simp [qval, hd]
      rw [this]
      exact .last ha hd
    | false =>
      rw [hd] at h
      simp only [Bool.false_eq_true, if_false, Option.map_eq_some_iff] at h
      obtain ⟨l', h3, rfl⟩ := h
      have : W s = p.reward s (pol s) + γ * W (p.next s (pol s)) := by rw [← hq]; simp [qval, hd]
      rw [this]
      exact .step ha hd (ih _ _ (hc s hs _ ha hd) h3)

/-- **C17, optimality.**  With a zero threshold and rewards that are never positive every result of policy iteration
is an episode with the largest return of all episodes.
Missing from the full property: rewards of both signs. -/
theorem policy_iteration_optimal_partial (hne : ∀ s, p.actions s ≠ [])
    (hγ : 0 ≤ γ) (hrew : ∀ s a, p.reward s a ≤ 0) {k start : Nat} {l : List (Nat × Nat)}
    (h : policyIteration p γ 0 k start = some l) :
    ∃ r, Episode p γ start l r ∧ ∀ l' r', Episode p γ start l' r' → r' ≤ r := by
  unfold policyIteration at h
  rw [Option.bind_eq_some_iff] at h
  obtain ⟨S, hS, h⟩ := h
  rw [Option.bind_eq_some_iff] at h
  obtain ⟨⟨W, pol⟩, hW, h⟩ := h
  obtain ⟨hn, hc, hst⟩ := generate_spec hS
  have hfix := piLoop_fix hne hγ hc hn hrew _ _ _ _ _ (first_ready hne) hW
  exact ⟨W start, piExtract_spec hc hne (fun s hs => ⟨(hfix s hs).1, (hfix s hs).2.1⟩) k start l hst h,
    fun l' r' he => episode_le hγ hne hc (fun s hs => (hfix s hs).2.2) he hst⟩

/-- The stationary best values exist. -/
theorem best_exists (hr : Acyclic p rank) (hne : ∀ s, p.actions s ≠ []) (hγ : 0 ≤ γ) (hc : Closed p S) (hn : S.Nodup)
    (hrew : ∀ s a, p.reward s a ≤ 0) : ∃ V, ∀ s ∈ S, bestVal p γ V s = V s := by
  obtain ⟨k, V, hV⟩ := loop_stops ((best_ranked (γ := γ) hr hc).reverse) (List.nodup_reverse.2 hn) (le_refl (0 : R))
    (fun _ => 0) 0
  have hfix := loop_fix_down (best_mono hγ hne hc).reverse (List.nodup_reverse.2 hn) (V := fun _ => 0) (by
    intro s hs
    obtain ⟨a, ha, -, h1, -⟩ := bestVal_spec (γ := γ) hne (fun _ => 0) s
    rw [h1]
    exact qval_nonpos hγ hc hrew (fun _ _ => le_refl _) (by simpa using hs) ha) (sum_const_zero _).symm hV
  exact ⟨V, fun s hs => hfix s (by simp [hs])⟩

theorem improved_congr (hr : Acyclic p rank) (hc : Closed p S) {V W : Nat → R} (h : ∀ t ∈ S, V t = W t) {s : Nat}
    (hs : s ∈ S) {o o' : Nat} (hne : ∀ s, p.actions s ≠ []) : improved p γ V s o = improved p γ W s o' := by
  have : pick (qval p γ V s) (p.actions s) = pick (qval p γ W s) (p.actions s) := by
    unfold pick
    exact pickFrom_congr (fun a ha => qval_congr (γ := γ) hc hr hs (fun t ht _ => h t ht) ha)
  unfold improved
  rw [this]
  obtain ⟨a, -, h1, -⟩ := bestVal_spec (γ := γ) hne W s
  rw [h1]

/-- Rounds after the first: values of states of rank below `i` are already best. -/
theorem piLoop_stops (hr : Acyclic p rank) (hne : ∀ s, p.actions s ≠ []) (hγ : 0 ≤ γ) (hc : Closed p S) (hn : S.Nodup)
    (hrew : ∀ s a, p.reward s a ≤ 0) {Vs : Nat → R} (hVs : ∀ s ∈ S, bestVal p γ Vs s = Vs s) {N : Nat}
    (hN : ∀ s ∈ S, rank s < N) : ∀ (m i : Nat) (V : Nat → R) (o : Nat → Nat), i + m = N →
    (∀ s ∈ S, rank s < i → V s = Vs s) → (∀ s ∈ S, V s ≤ 0) →
    (∀ s ∈ S, V s ≤ bestVal p γ V s) →
    ∃ K, ∀ k, K ≤ k → ∀ evals, K ≤ evals →
      ∃ r, piLoop p γ 0 S evals k V (fun s => if s ∈ S then improved p γ V s (o s) else o s) = some r := by
  intro m
  induction m with
  | zero =>
    intro i V o hi hV h0 hle
    have hpol : ∀ s ∈ S, (fun s => if s ∈ S then improved p γ V s (o s) else o s) s ∈ p.actions s := by
      intro s hs; simp only [hs, if_true]; exact (improved_mem (γ := γ) hne V s (o s)).1
    have hR : Ready p γ S V (fun s => if s ∈ S then improved p γ V s (o s) else o s) := by
      refine ⟨hpol, .inr ⟨h0, ?_⟩⟩
      intro s hs
      simp only [hs, if_true]
      rw [(improved_mem (γ := γ) hne V s (o s)).2]
      exact hle s hs
    obtain ⟨k1, W, hW⟩ := loop_stops ((pol_ranked (γ := γ) hr hc hpol).reverse) (List.nodup_reverse.2 hn)
      (le_refl (0 : R)) V 0
    rw [← eval_eq] at hW
    obtain ⟨h1, h2, h3⟩ := eval_fix hγ hc hn hrew hR hW
    have hWle := fix_le hγ hne hr hc hpol h1 hVs
    have hVeq : ∀ s ∈ S, V s = Vs s := fun s hs => hV s hs (by have := hN s hs; omega)
    have hge : ∀ s ∈ S, V s ≤ W s := by
      rcases h3 with h3 | h3
      · -- all zero: the best values are zero, so are the values of the best policy
        intro s hs
        have : ∀ n s, s ∈ S → rank s < n → V s ≤ W s := by
          intro n
          induction n with
          | zero => intro s _ h; omega
          | succ n ih =>
            intro s hs hlt
            have e : qval p γ V s (improved p γ V s (o s)) = bestVal p γ V s := (improved_mem (γ := γ) hne V s (o s)).2
            have e1 : bestVal p γ V s = Vs s := by
              rw [← hVs s hs]
              exact (best_mono (γ := γ) hγ hne hc).congr hVeq s hs
            rw [hVeq s hs, ← e1, ← e, ← h1 s hs]
            simp only [hs, if_true]
            unfold qval
            cases hd : p.done s (improved p γ V s (o s)) with
            | true => simp
            | false =>
              simp only [Bool.false_eq_true, if_false]
              have hm := (improved_mem (γ := γ) hne V s (o s)).1
              have := hr s _ hm hd
              have := mul_le_mul_of_nonneg_left (ih _ (hc s hs _ hm hd) (by omega)) hγ
              linarith
        exact this _ s hs (Nat.lt_succ_self _)
      · exact h3
    have hWeq : ∀ s ∈ S, V s = W s := fun s hs => le_antisymm (hge s hs) ((hWle s hs).trans (hVeq s hs).ge)
    refine ⟨max 1 k1, fun k hk evals he => ?_⟩
    obtain ⟨k, rfl⟩ : ∃ j, k = j + 1 := ⟨k - 1, by omega⟩
    rw [piLoop, untilSmall_mono (by omega) hW]
    simp only [Option.bind_some]
    rw [if_pos]
    · exact ⟨_, rfl⟩
    · simp only [improve, decide_eq_true_eq]
      intro s hs
      simp only [hs, if_true]
      exact improved_congr hr hc (fun t ht => (hWeq t ht).symm) hs hne
  | succ m ih =>
    intro i V o hi hV h0 hle
    have hpol : ∀ s ∈ S, (fun s => if s ∈ S then improved p γ V s (o s) else o s) s ∈ p.actions s := by
      intro s hs; simp only [hs, if_true]; exact (improved_mem (γ := γ) hne V s (o s)).1
    have hR : Ready p γ S V (fun s => if s ∈ S then improved p γ V s (o s) else o s) := by
      refine ⟨hpol, .inr ⟨h0, ?_⟩⟩
      intro s hs
      simp only [hs, if_true]
      rw [(improved_mem (γ := γ) hne V s (o s)).2]
      exact hle s hs
    obtain ⟨k1, W, hW⟩ := loop_stops ((pol_ranked (γ := γ) hr hc hpol).reverse) (List.nodup_reverse.2 hn)
      (le_refl (0 : R)) V 0
    rw [← eval_eq] at hW
    obtain ⟨h1, h2, h3⟩ := eval_fix hγ hc hn hrew hR hW
    have hWle := fix_le hγ hne hr hc hpol h1 hVs
    -- values of lower rank are best after this round
    have hup : ∀ s ∈ S, rank s < i + 1 → W s = Vs s := by
      have : ∀ n s, s ∈ S → rank s < n → rank s < i + 1 → W s = Vs s := by
        intro n
        induction n with
        | zero => intro s _ h; omega
        | succ n ihn =>
          intro s hs hlt hlti
          have e : qval p γ V s (improved p γ V s (o s)) = bestVal p γ V s := (improved_mem (γ := γ) hne V s (o s)).2
          have e1 : bestVal p γ V s = Vs s := by
            rw [← hVs s hs]
            exact best_ranked (γ := γ) hr hc V Vs s hs (fun t ht htr => hV t ht (by omega))
          have hm := (improved_mem (γ := γ) hne V s (o s)).1
          rw [← h1 s hs, ← e1, ← e]
          simp only [hs, if_true]
          refine qval_congr (γ := γ) hc hr hs ?_ hm
          intro t ht htr
          rw [ihn t ht (by omega) (by omega), hV t ht (by omega)]
      intro s hs hlt
      exact this _ s hs (Nat.lt_succ_self _) hlt
    have hWb : ∀ s ∈ S, W s ≤ bestVal p γ W s := by
      intro s hs
      obtain ⟨-, -, -, -, hb⟩ := bestVal_spec (γ := γ) hne W s
      calc W s = _ := (h1 s hs).symm
        _ ≤ _ := hb _ (hpol s hs)
    obtain ⟨K, hK⟩ := ih (i + 1) W (fun s => if s ∈ S then improved p γ V s (o s) else o s) (by omega) hup h2 hWb
    refine ⟨max (K + 1) k1, fun k hk evals he => ?_⟩
    obtain ⟨k, rfl⟩ : ∃ j, k = j + 1 := ⟨k - 1, by omega⟩
    rw [piLoop, untilSmall_mono (by omega) hW]
    simp only [Option.bind_some]
    split_ifs with hst
    · exact ⟨_, rfl⟩
    · exact hK k (by omega) evals (by omega)

theorem piExtract_stops (hr : Acyclic p rank) (hc : Closed p S) {pol : Nat → Nat}
    (hp : ∀ s ∈ S, pol s ∈ p.actions s) : ∀ (k s : Nat), s ∈ S → rank s < k → ∃ l, piExtract p pol k s = some l := by
  intro k
  induction k with
  | zero => intro s _ h; omega
  | succ k ih =>
    intro s hs hlt
    rw [piExtract]
    split_ifs with h1 h2
    · exact ⟨_, rfl⟩
    · exact ⟨_, rfl⟩
    · have hd : p.done s (pol s) = false := by simpa using h2
      obtain ⟨l, hl⟩ := ih (p.next s (pol s)) (hc s hs _ (hp s hs) hd) (by have := hr s _ (hp s hs) hd; omega)
      exact ⟨_, by rw [hl]; rfl⟩

/-- **C17, termination** with a zero threshold and rewards that are never positive. -/
theorem policy_iteration_terminates_partial (hr : Acyclic p rank) (hne : ∀ s, p.actions s ≠ []) (hγ : 0 ≤ γ)
    (hrew : ∀ s a, p.reward s a ≤ 0) (start : Nat) :
    ∃ K, ∀ k, K ≤ k → ∃ l, policyIteration p γ 0 k start = some l := by
  obtain ⟨k1, S, hS⟩ := generate_stops hr start
  obtain ⟨hn, hc, hst⟩ := generate_spec hS
  obtain ⟨Vs, hVs⟩ := best_exists hr hne hγ hc hn hrew
  obtain ⟨N, hN⟩ : ∃ N, ∀ s ∈ S, rank s < N := by
    clear * -
    induction S with
    | nil => exact ⟨0, by simp⟩
    | cons s ss ih =>
      obtain ⟨N, hN⟩ := ih
      refine ⟨max N (rank s + 1), fun t ht => ?_⟩
      rcases List.mem_cons.1 ht with rfl | ht
      · omega
      · have := hN t ht; omega
  have hR := first_ready (γ := γ) (S := S) hne
  obtain ⟨k2, W, hW⟩ := loop_stops ((pol_ranked (γ := γ) hr hc hR.1).reverse) (List.nodup_reverse.2 hn)
    (le_refl (0 : R)) (fun _ => 0) 0
  rw [← eval_eq] at hW
  obtain ⟨h1, h2, -⟩ := eval_fix hγ hc hn hrew hR hW
  obtain ⟨K, hK⟩ := piLoop_stops hr hne hγ hc hn hrew hVs hN N 0 W (firstPolicy p S) (by omega)
    (fun _ _ h => by omega) h2 (by
      intro s hs
      obtain ⟨-, -, -, -, hb⟩ := bestVal_spec (γ := γ) hne W s
      calc W s = _ := (h1 s hs).symm
        _ ≤ _ := hb _ (hR.1 s hs))
  refine ⟨max (max k1 k2) (max (K + 1) N), fun k hk => ?_⟩
  have hloop : ∃ r, piLoop p γ 0 S k k (fun _ => 0) (firstPolicy p S) = some r := by
    obtain ⟨j, hj⟩ : ∃ j, k = j + 1 := ⟨k - 1, by omega⟩
    obtain ⟨r, hr'⟩ := hK j (by omega) k (by omega)
    by_cases hst : (improve p γ W S (firstPolicy p S)).2 = true
    · refine ⟨(W, (improve p γ W S (firstPolicy p S)).1), ?_⟩
      rw [congrArg (piLoop p γ 0 S k) hj]
      rw [piLoop, untilSmall_mono (by omega) hW]
      simp only [Option.bind_some]
      rw [if_pos hst]
    · refine ⟨r, ?_⟩
      rw [congrArg (piLoop p γ 0 S k) hj]
      rw [piLoop, untilSmall_mono (by omega) hW]
      simp only [Option.bind_some]
      rw [if_neg hst]
      exact hr'
  obtain ⟨⟨W', pol'⟩, hl⟩ := hloop
  have hp := policy_iteration_stable hne _ _ _ _ _ hl
  obtain ⟨l, hx⟩ := piExtract_stops hr hc (fun s hs => (hp s hs).1) k start hst (by have := hN start hst; omega)
  refine ⟨l, ?_⟩
  unfold policyIteration
  rw [generate_mono (by omega) hS]
  simp only [Option.bind_some]
  rw [hl]
  exact hx

example : policyIteration (demo (-1) (-2) (-5) 0) 1 0 9 0 = some [(0, 2), (1, 3), (3, 2), (2, 2)] := by decide

/-- Both steps of the hypotheses for `policy_iteration_stable`: the loop ends. -/
example : ((piLoop (demo (-1) (-2) (-5) 0) 1 0 [0, 1, 2, 3] 9 9 (fun _ => 0)
    (firstPolicy (demo (-1) (-2) (-5) 0) [0, 1, 2, 3])).map (fun r => (r.1 0, r.2 1))) = some (-7, 3) := by decide

/-- **C17 fails** for rewards of both signs: the values of the first evaluation sum to zero after one sweep, so they
are taken as final and the first policy counts as stable although another episode has a larger return. -/
theorem policy_iteration_optimal_fails :
    policyIteration (demo 0 (-7) 2 1) 1 0 9 0 = some [(0, 2), (1, 2), (2, 2)] ∧
    Episode (demo 0 (-7) 2 1) 1 0 [(0, 2), (1, 2), (2, 2)] (-5) ∧
    Episode (demo 0 (-7) 2 1) 1 0 [(0, 2), (1, 3), (3, 2), (2, 2)] (-4) := by
  have h1 : Episode (demo 0 (-7) 2 1) 1 2 [(2, 2)] 2 := .last (p := demo 0 (-7) 2 1) (s := 2) (a := 2) (by decide) rfl
  refine ⟨by decide, ?_, ?_⟩
  · have h2 : Episode (demo 0 (-7) 2 1) 1 1 [(1, 2), (2, 2)] 2 := .step (p := demo 0 (-7) 2 1) (s := 1) (a := 2) (by decide) rfl h1
    exact .step (p := demo 0 (-7) 2 1) (s := 0) (a := 2) (by decide) rfl h2
  · have h2 : Episode (demo 0 (-7) 2 1) 1 3 [(3, 2), (2, 2)] 3 := .step (p := demo 0 (-7) 2 1) (s := 3) (a := 2) (by decide) rfl h1
    have h3 : Episode (demo 0 (-7) 2 1) 1 1 [(1, 3), (3, 2), (2, 2)] 3 := .step (p := demo 0 (-7) 2 1) (s := 1) (a := 3) (by decide) rfl h2
    exact .step (p := demo 0 (-7) 2 1) (s := 0) (a := 2) (by decide) rfl h3

/-! ### The process of an environment -/

/-- What the environment has memoised, as a process (single.hpp 158-217); steps not taken yet count as ending. -/
def ofEnv {Q : Type} [Zero Q] (c : MM.Env.Cfg) (e : MM.Env.Env Q) : Proc Q where
  actions s := match MM.Env.actions c { e with cur := s } with
    | .ok as => as
    | _ => [0]
  next s a := match e.entry s a with | some r => r.state | none => 0
  reward s a := match e.entry s a with | some r => r.reward | none => 0
  done s a := match e.entry s a with | some r => r.done | none => true

/-- Measure of a state number. -/
def envRank {Q : Type} (c : MM.Env.Cfg) (e : MM.Env.Env Q) (s : Nat) : Nat :=
  match e.states[s]? with
  | some t => (MM.Env.mu c t).toNat
  | none => 0

/-- The process of every environment that occurs is acyclic, offers an action everywhere, and later steps follow it. -/
theorem env_process {Q : Type} [CommRing Q] [LinearOrder Q] [IsStrictOrderedRing Q] {c : MM.Env.Cfg}
    (hp : 2 ≤ c.points) {e : MM.Env.Env Q} (h : MM.Env.Reach c e) :
    Acyclic (ofEnv c e) (envRank c e) ∧ (∀ s, (ofEnv c e).actions s ≠ []) ∧
    ∀ f, MM.Env.Hist c e f → ∀ a r j, e.entry f.cur a = some r →
      ∃ f', MM.Env.step c f a j = .ok (r, f') ∧ r.state = (ofEnv c e).next f.cur a ∧
        r.reward = (ofEnv c e).reward f.cur a ∧ r.done = (ofEnv c e).done f.cur a := by
  obtain ⟨hi, -⟩ := MM.Env.reach_live hp h
  refine ⟨?_, ?_, ?_⟩
  · intro s a _ hd
    simp only [ofEnv] at hd ⊢
    cases he : e.entry s a with
    | none => rw [he] at hd; cases hd
    | some r =>
      rw [he] at hd
      simp only at hd ⊢
      have hlt : s < e.states.length := by
        by_contra hc
        unfold MM.Env.Env.entry at he
        rw [List.getElem?_eq_none (by rw [hi.clen]; omega)] at he
        cases he
      have hs : e.states[s]? = some e.states[s] := List.getElem?_eq_getElem hlt
      obtain ⟨t, h1, h2, h3⟩ := hi.res s a r _ he hs
      rw [h3] at hd
      unfold envRank
      rw [h1, hs]
      simp only
      rcases h2.dec with h4 | h4
      · rw [hd] at h4; cases h4
      · have hpos : 0 < MM.Env.mu c t := by
          unfold MM.Env.done at hd
          have := of_decide_eq_false hd
          unfold MM.Env.mu; omega
        omega
  · intro s
    simp only [ofEnv]
    unfold MM.Env.actions
    cases hs : e.states[s]? with
    | none => simp
    | some t =>
      simp only
      cases ht : t.getLast? with
      | none => simp
      | some b =>
        simp only
        split_ifs with hb
        · simp; omega
        · simp
  · intro f hf a r j hr
    have hext := (MM.Env.hist_live hp (MM.Env.reach_live hp h) hf).2.cache _ _ _ hr
    refine ⟨{ f with cur := r.state }, ?_, ?_, ?_, ?_⟩
    · unfold MM.Env.step
      rw [MM.Env.cached_eq, hext]
    · simp only [ofEnv, hr]
    · simp only [ofEnv, hr]
    · simp only [ofEnv, hr]

/-! ### C18 -/

section Q
variable {F : Type} [CommRing F] [LinearOrder F] [IsStrictOrderedRing F]

/-- The value actually assigned: the target scaled by the learning rate, whatever the old estimate was. -/
theorem q_update_value (lr γ : F) (Q : Nat → List (Option F)) (s a s' : Nat) (hs : s' ≠ s) (r : F) :
    (qUpdate lr γ Q s a s' r s)[a]? = some (some (lr * (r + γ * maxNext (Q s')))) := by
  unfold qUpdate
  rw [if_pos rfl, if_neg hs]
  rw [List.getElem?_set_self (by unfold padRow; simp; omega)]
  unfold newQ
  simp

/-- **C18, other entries.**  An update changes the entry of the visited pair only (the row may grow by entries without
estimate). -/
theorem q_update_frame_partial (lr γ : F) (Q : Nat → List (Option F)) (s a s' : Nat) (r : F) (t b : Nat)
    (h : ¬ (t = s ∧ b = a)) : ((qUpdate lr γ Q s a s' r t)[b]?).join = ((Q t)[b]?).join := by
  unfold qUpdate
  by_cases ht : t = s
  · subst ht
    have hb : a ≠ b := fun hc => h ⟨rfl, hc.symm⟩
    rw [if_pos rfl, List.getElem?_set_ne hb]
    unfold padRow
    by_cases hlt : b < (Q t).length
    · rw [List.getElem?_append_left hlt]
    · rw [List.getElem?_append_right (by omega), List.getElem?_eq_none (l := Q t) (by omega), List.getElem?_replicate]
      split_ifs <;> rfl
  · rw [if_neg ht]

theorem foldl_max_le {m : F} (xs : List F) : ∀ x, x ≤ m → (∀ y ∈ xs, y ≤ m) → xs.foldl max x ≤ m := by
  induction xs with
  | nil => intro x h _; exact h
  | cons y ys ih =>
    intro x h hy
    exact ih _ (max_le h (hy y (by simp))) (fun z hz => hy z (by simp [hz]))

theorem le_foldl_max (xs : List F) : ∀ x, x ≤ xs.foldl max x := by
  induction xs with
  | nil => intro x; exact le_refl _
  | cons y ys ih => intro x; exact (le_max_left x y).trans (ih _)

theorem maxNext_bounds {lo : F} (hlo : lo ≤ 0) {row : List (Option F)}
    (h : ∀ x, some x ∈ row → lo ≤ x ∧ x ≤ 0) : lo ≤ maxNext row ∧ maxNext row ≤ 0 := by
  unfold maxNext
  have hmem : ∀ x ∈ row.filterMap id, lo ≤ x ∧ x ≤ 0 := by
    intro x hx
    rw [List.mem_filterMap] at hx
    obtain ⟨o, ho, rfl⟩ := hx
    exact h x ho
  cases hf : row.filterMap id with
  | nil => simp [hlo]
  | cons x xs =>
    rw [hf] at hmem
    simp only
    exact ⟨(hmem x (by simp)).1.trans (le_foldl_max _ _),
      foldl_max_le _ _ (hmem x (by simp)).2 (fun y hy => (hmem y (by simp [hy])).2)⟩

/-- All estimates lie between `lo` and 0. -/
def Within (lo : F) (Q : Nat → List (Option F)) : Prop := ∀ t x, some x ∈ Q t → lo ≤ x ∧ x ≤ 0

theorem within_pad {lo : F} {Q : Nat → List (Option F)} (h : Within lo Q) (s a : Nat) :
    ∀ x, some x ∈ padRow (Q s) a → lo ≤ x ∧ x ≤ 0 := by
  intro x hx
  unfold padRow at hx
  rcases List.mem_append.1 hx with hx | hx
  · exact h s x hx
  · rw [List.mem_replicate] at hx; cases hx.2

/-- **C18, bounds.**  Rewards between `rmin` and 0, discount and learning rate between 0 and 1: estimates stay between
0 and any `lo` with `rmin + γ * lo ≥ lo` (the bound implied by the rewards). -/
theorem q_update_bounds_partial {lr γ rmin lo : F} (hlr : 0 ≤ lr) (hlr1 : lr ≤ 1) (hγ : 0 ≤ γ)
    (hlo : lo ≤ 0) (hb : lo ≤ rmin + γ * lo) {Q : Nat → List (Option F)} (hQ : Within lo Q) (s a s' : Nat) {r : F}
    (hr : rmin ≤ r) (hr0 : r ≤ 0) : Within lo (qUpdate lr γ Q s a s' r) := by
  intro t x hx
  unfold qUpdate at hx
  by_cases ht : t = s
  · subst ht
    rw [if_pos rfl] at hx
    rcases List.mem_or_eq_of_mem_set hx with hx | hx
    · exact within_pad hQ t a x hx
    · have hm : lo ≤ maxNext (if s' = t then padRow (Q t) a else Q s') ∧
          maxNext (if s' = t then padRow (Q t) a else Q s') ≤ 0 := by
        split_ifs with hs
        · exact maxNext_bounds hlo (within_pad hQ t a)
        · exact maxNext_bounds hlo (hQ s')
      generalize maxNext (if s' = t then padRow (Q t) a else Q s') = m at hx hm
      have hx' : x = lr * (r + γ * m) := by
        have := Option.some.inj hx
        rw [this]; unfold newQ; ring
      have h1 : γ * m ≤ 0 := mul_nonpos_of_nonneg_of_nonpos hγ hm.2
      have h2 : γ * lo ≤ γ * m := mul_le_mul_of_nonneg_left hm.1 hγ
      have h3 : lo ≤ r + γ * m := by linarith
      have h4 : r + γ * m ≤ 0 := by linarith
      rw [hx']
      constructor
      · have : lr * (r + γ * m) ≥ 1 * (r + γ * m) := mul_le_mul_of_nonpos_right hlr1 h4
        linarith
      · exact mul_nonpos_of_nonneg_of_nonpos hlr h4
  · rw [if_neg ht] at hx
    exact hQ t x hx

end Q

example : Within (-20 : Rat) (fun t => if t = 0 then [none, none, some (-3)] else [none, none, some (-7), none]) := by
  intro t x hx
  by_cases h : t = 0
  · simp [h] at hx; subst hx; constructor <;> norm_num
  · simp [h] at hx; subst hx; constructor <;> norm_num

example : qUpdate (9 / 10 : Rat) 1 (fun t => if t = 0 then [none, none, some (-3)] else [none, none, some (-7), none])
    0 2 1 (-1) 0 = [none, none, some (-36 / 5)] := by
  unfold qUpdate padRow maxNext newQ
  norm_num [List.filterMap]

/-- **C18 fails**: `(1 - lr) * old + lr * (reward + discount * best next)` is not what is assigned (q_learning.hpp
145-147 adds and subtracts the old estimate outside the product): with learning rate 1/2 and old estimate -3 the
value should be -11/2, it is -4. -/
theorem q_update_target_fails :
    (qUpdate (1 / 2 : Rat) 1 (fun t => if t = 0 then [none, none, some (-3)] else [none, none, some (-7), none])
      0 2 1 (-1) 0)[2]? = some (some (-4 : Rat)) ∧
    (1 - 1 / 2) * (-3) + 1 / 2 * (-1 + 1 * (-7) : Rat) = -11 / 2 := by
  constructor
  · rw [q_update_value _ _ _ _ _ _ (by decide)]
    unfold maxNext
    norm_num [List.filterMap]
  · norm_num

end MM.Learn
