import Verif.Props.Learn

/-!
# C16 with a threshold

The loop of value iteration stops when the sum of the values changes by no more than `threshold` (value_iteration.hpp 131,
173-176; matching/settings.hpp 70: 0.001 by default).  How far the result can be from the best.
-/

set_option autoImplicit false
set_option linter.unusedSectionVars false

namespace MM.Learn

variable {R : Type} [CommRing R] [LinearOrder R] [IsStrictOrderedRing R]
variable {p : Proc R} {γ : R} {S : List Nat} {rank : Nat → Nat} {B : (Nat → R) → Nat → R}

theorem sum_gap {l : List Nat} {f g : Nat → R} (h : ∀ t ∈ l, f t ≤ g t) {d : R}
    (he : |(l.map f).sum - (l.map g).sum| ≤ d) : ∀ t ∈ l, g t ≤ f t + d := by
  have hb : (l.map g).sum - (l.map f).sum ≤ d := by
    have := neg_abs_le ((l.map f).sum - (l.map g).sum)
    linarith
  clear he
  induction l generalizing d with
  | nil => intro t ht; cases ht
  | cons s ss ih =>
    simp only [List.map_cons, List.sum_cons] at hb
    have h1 := h s (by simp)
    have h2 : (ss.map f).sum ≤ (ss.map g).sum := List.sum_le_sum (fun t ht => h t (by simp [ht]))
    intro t ht
    rcases List.mem_cons.1 ht with rfl | ht
    · linarith
    · exact ih (fun t ht => h t (by simp [ht])) (by linarith) t ht

/-- Starting above the replacements, with the right first value: the result is above its replacements, by no more than the
threshold allows. -/
theorem loop_near_down (hm : Mono B S) (hn : S.Nodup) {V : Nat → R} (h0 : ∀ s ∈ S, B V s ≤ V s)
    {v : R} (hv : v = (S.map V).sum) {th : R} {k : Nat} {W : Nat → R}
    (h : untilSmall (fun V => gSweep B S (V, 0)) th k V v none = some W) :
    (∀ s ∈ S, B W s ≤ W s) ∧ ∀ s ∈ S, ∃ M : Nat → R, W s = B M s ∧ ∀ t ∈ S, M t ≤ W t + th := by
  obtain ⟨j, rfl, hj⟩ := untilSmall_result _ _ _ _ _ (by intro d hd; cases hd) h
  have hsup : ∀ i, ∀ s ∈ S, B (iter (fun V => gSweep B S (V, 0)) V i) s ≤ iter (fun V => gSweep B S (V, 0)) V i s := by
    intro i
    induction i with
    | zero => exact h0
    | succ i ih => exact (gSweep_down hm (fun s hs => hs) _ 0 ih).2
  have htot : ∀ i, total (fun V => gSweep B S (V, 0)) V v i = (S.map (iter (fun V => gSweep B S (V, 0)) V i)).sum := by
    intro i
    cases i with
    | zero => exact hv
    | succ i => unfold total; simp only; rw [gSweep_sum hn]; simp [iter]
  rw [htot, htot] at hj
  have hdown := (gSweep_down hm (fun s hs => hs) _ 0 (hsup j)).1
  have hgap := sum_gap hdown hj
  have hth : 0 ≤ th := (abs_nonneg _).trans hj
  refine ⟨hsup (j + 1), fun s hs => ?_⟩
  obtain ⟨M, h1, h2⟩ := gSweep_from hn (iter (fun V => gSweep B S (V, 0)) V j) 0 s hs (B := B)
  refine ⟨M, h1, fun t ht => ?_⟩
  rcases h2 t with h3 | h3
  · rw [h3]; exact hgap t ht
  · rw [h3]
    show (gSweep B S (iter (fun V => gSweep B S (V, 0)) V j, 0)).1 t ≤ (gSweep B S (iter (fun V => gSweep B S (V, 0)) V j, 0)).1 t + th
    linarith

theorem best_shift (hγ : 0 ≤ γ) (hne : ∀ s, p.actions s ≠ []) (hc : Closed p S) {V W : Nat → R} {d : R} (hd : 0 ≤ d)
    (h : ∀ t ∈ S, V t ≤ W t + d) {s : Nat} (hs : s ∈ S) : bestVal p γ V s ≤ bestVal p γ W s + γ * d := by
  obtain ⟨a, ha, -, h1, -⟩ := bestVal_spec (γ := γ) hne V s
  obtain ⟨-, -, -, -, h2⟩ := bestVal_spec (γ := γ) hne W s
  rw [h1]
  refine le_trans ?_ (add_le_add_left (h2 a ha) _)
  unfold qval
  have hγd := mul_nonneg hγ hd
  cases hdn : p.done s a with
  | true => simpa using hγd
  | false =>
    simp only [Bool.false_eq_true, if_false]
    have := mul_le_mul_of_nonneg_left (h _ (hc s hs a ha hdn)) hγ
    linarith

/-- Values above their replacements are above all returns. -/
theorem episode_le_above (hγ : 0 ≤ γ) (hne : ∀ s, p.actions s ≠ []) (hc : Closed p S) {V : Nat → R}
    (hV : ∀ s ∈ S, bestVal p γ V s ≤ V s) {s : Nat} {l : List (Nat × Nat)} {r : R} (he : Episode p γ s l r)
    (hs : s ∈ S) : r ≤ V s := by
  induction he with
  | @last s a ha hd =>
    obtain ⟨-, -, -, -, h2⟩ := bestVal_spec (γ := γ) hne V s
    refine le_trans (le_trans (le_of_eq ?_) (h2 a ha)) (hV s hs)
    simp [qval, hd]
  | @step s a l r ha hd _ ih =>
    obtain ⟨-, -, -, -, h2⟩ := bestVal_spec (γ := γ) hne V s
    refine le_trans (le_trans ?_ (h2 a ha)) (hV s hs)
    have := mul_le_mul_of_nonneg_left (ih (hc s hs a ha hd)) hγ
    simp only [qval, hd, Bool.false_eq_true, if_false]
    linarith

/-- `1 + γ + γ² + …`, one term for each step of an episode. -/
def discounted (γ : R) : Nat → R
  | 0 => 0
  | n + 1 => 1 + γ * discounted γ n

theorem discounted_le (h0 : 0 ≤ γ) (h1 : γ ≤ 1) (n : Nat) : 0 ≤ discounted γ n ∧ discounted γ n ≤ n := by
  induction n with
  | zero => simp [discounted]
  | succ n ih =>
    have h2 := mul_nonneg h0 ih.1
    have h3 := mul_le_mul_of_nonneg_right h1 ih.1
    rw [one_mul] at h3
    have := ih.2
    refine ⟨by unfold discounted; linarith, ?_⟩
    unfold discounted
    push_cast
    linarith

theorem viExtract_near (hne : ∀ s, p.actions s ≠ []) (hγ : 0 ≤ γ) (hc : Closed p S) {V : Nat → R} {d : R}
    (hV : ∀ s ∈ S, V s ≤ bestVal p γ V s + d) : ∀ (k s : Nat) (l : List (Nat × Nat)), s ∈ S →
    viExtract p γ V k s = some l → ∃ r, Episode p γ s l r ∧ V s ≤ r + d * discounted γ l.length := by
  intro k
  induction k with
  | zero => intro s l _ h; cases h
  | succ k ih =>
    intro s l hs h
    obtain ⟨a, ha, h1, h2, -⟩ := bestVal_spec (γ := γ) hne V s
    unfold viExtract at h
    rw [h1] at h
    simp only at h
    have hv := hV s hs
    cases hd : p.done s a with
    | true =>
      rw [hd] at h
      simp only [if_true, Option.some.injEq] at h
      subst h
      refine ⟨_, .last ha hd, ?_⟩
      rw [h2] at hv
      simp only [qval, hd, if_true] at hv
      simpa [discounted] using hv
    | false =>
      rw [hd] at h
      simp only [Bool.false_eq_true, if_false, Option.map_eq_some_iff] at h
      obtain ⟨l', h3, rfl⟩ := h
      obtain ⟨r, h4, h5⟩ := ih _ _ (hc s hs a ha hd) h3
      refine ⟨_, .step ha hd h4, ?_⟩
      rw [h2] at hv
      simp only [qval, hd, Bool.false_eq_true, if_false] at hv
      have := mul_le_mul_of_nonneg_left h5 hγ
      simp only [List.length_cons, discounted]
      have e : d * (1 + γ * discounted γ l'.length) = d + γ * (d * discounted γ l'.length) := by ring
      rw [e]
      linarith [mul_add γ r (d * discounted γ l'.length)]

/-- **C16, with a threshold.**  For rewards that are never positive, whatever the threshold, no episode has a return that
exceeds that of the result by more than the discounted threshold for each of its steps.
Missing from the full property: rewards of both signs (`value_iteration_optimal_fails`). -/
theorem value_iteration_near_partial (hne : ∀ s, p.actions s ≠ []) (hγ : 0 ≤ γ) (hrew : ∀ s a, p.reward s a ≤ 0)
    {th : R} {k start : Nat} {l : List (Nat × Nat)} (h : valueIteration p γ th k start = some l) :
    ∃ r, Episode p γ start l r ∧ ∀ l' r', Episode p γ start l' r' → r' ≤ r + γ * th * discounted γ l.length := by
  unfold valueIteration at h
  rw [Option.bind_eq_some_iff] at h
  obtain ⟨S, hS, h⟩ := h
  rw [Option.bind_eq_some_iff] at h
  obtain ⟨V, hV, h⟩ := h
  obtain ⟨hn, hc, hst⟩ := generate_spec hS
  have : (fun V => viSweep p γ S.reverse (V, 0)) = fun V => gSweep (bestVal p γ) S.reverse (V, 0) := by
    funext V; exact viSweep_eq hne _ _
  rw [this] at hV
  have hth : 0 ≤ th := by
    obtain ⟨j, -, hj⟩ := untilSmall_result _ _ _ _ _ (by intro d hd; cases hd) hV
    exact (abs_nonneg _).trans hj
  obtain ⟨h1, h2⟩ := loop_near_down (best_mono hγ hne hc).reverse (List.nodup_reverse.2 hn) (V := fun _ => 0) (by
    intro s hs
    obtain ⟨a, ha, -, h1, -⟩ := bestVal_spec (γ := γ) hne (fun _ => 0) s
    rw [h1]
    exact qval_nonpos hγ hc hrew (fun _ _ => le_refl _) (by simpa using hs) ha) (sum_const_zero _).symm hV
  have hnear : ∀ s ∈ S, V s ≤ bestVal p γ V s + γ * th := by
    intro s hs
    obtain ⟨M, h3, h4⟩ := h2 s (by simp [hs])
    rw [h3]
    exact best_shift hγ hne hc hth (fun t ht => h4 t (by simp [ht])) hs
  obtain ⟨r, h3, h4⟩ := viExtract_near hne hγ hc hnear k start l hst h
  exact ⟨r, h3, fun l' r' he => (episode_le_above hγ hne hc (fun s hs => h1 s (by simp [hs])) he hst).trans h4⟩

/-- With a positive threshold the episode returned (with return -11) need not be the best one (-8). -/
theorem threshold_costs :
    valueIteration (demo (-1) (-2) (-5) (-4)) 1 100 9 0 = some [(0, 2), (1, 3), (3, 2), (2, 2)] ∧
    Episode (demo (-1) (-2) (-5) (-4)) 1 0 [(0, 2), (1, 3), (3, 2), (2, 2)] (-11) ∧
    Episode (demo (-1) (-2) (-5) (-4)) 1 0 [(0, 2), (1, 2), (2, 2)] (-8) := by
  have h1 : Episode (demo (-1) (-2) (-5) (-4)) 1 2 [(2, 2)] (-5) := .last (p := demo (-1) (-2) (-5) (-4)) (s := 2) (a := 2) (by decide) rfl
  refine ⟨by decide, ?_, ?_⟩
  · have h3 : Episode (demo (-1) (-2) (-5) (-4)) 1 3 [(3, 2), (2, 2)] (-9) := .step (p := demo (-1) (-2) (-5) (-4)) (s := 3) (a := 2) (by decide) rfl h1
    have h2 : Episode (demo (-1) (-2) (-5) (-4)) 1 1 [(1, 3), (3, 2), (2, 2)] (-9) := .step (p := demo (-1) (-2) (-5) (-4)) (s := 1) (a := 3) (by decide) rfl h3
    exact .step (p := demo (-1) (-2) (-5) (-4)) (s := 0) (a := 2) (by decide) rfl h2
  · have h2 : Episode (demo (-1) (-2) (-5) (-4)) 1 1 [(1, 2), (2, 2)] (-6) := .step (p := demo (-1) (-2) (-5) (-4)) (s := 1) (a := 2) (by decide) rfl h1
    exact .step (p := demo (-1) (-2) (-5) (-4)) (s := 0) (a := 2) (by decide) rfl h2

/-- The hypotheses are met, and the bound: 100 for each of the four steps. -/
example : (∀ s, (demo (-1) (-2) (-5) (-4)).actions s ≠ []) ∧ (∀ s a, (demo (-1) (-2) (-5) (-4)).reward s a ≤ 0) ∧
    1 * 100 * discounted (1 : Int) 4 = 400 :=
  ⟨demo_ne _ _ _ _, by intro s a; simp only [demo]; split_ifs <;> decide, by decide⟩

end MM.Learn
