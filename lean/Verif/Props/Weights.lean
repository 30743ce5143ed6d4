import Verif.Model.Weights
import Verif.Props.Common
import Verif.Props.Viterbi
import Mathlib.Algebra.BigOperators.Intervals

/-!
# C72, C73: weights of candidates and routes
-/

set_option autoImplicit false
set_option linter.unusedSectionVars false

namespace MM.Weights

open MM.Common

/-! ### Logarithms of powers -/

theorem weight_eq {p : ℝ} (hp : 0 < p) (k : ℝ) : weight p k = k * Real.log p := Real.log_rpow hp k

theorem weight_nonpos {p k : ℝ} (hp : 0 < p) (h1 : p ≤ 1) (hk : 0 ≤ k) : weight p k ≤ 0 := by
  rw [weight_eq hp]
  exact mul_nonpos_of_nonneg_of_nonpos hk (Real.log_nonpos hp.le h1)

theorem weight_mono {p q k : ℝ} (hp : 0 < p) (h : p ≤ q) (hk : 0 ≤ k) : weight p k ≤ weight q k := by
  rw [weight_eq hp, weight_eq (lt_of_lt_of_le hp h)]
  exact mul_le_mul_of_nonneg_left (Real.log_le_log hp h) hk

theorem weight_strict {p q k : ℝ} (hp : 0 < p) (h : p < q) (hk : 0 < k) : weight p k < weight q k := by
  rw [weight_eq hp, weight_eq (hp.trans h)]
  exact mul_lt_mul_of_pos_left (Real.log_lt_log hp h) hk

/-! ### Observations -/

theorem foldl_far (ds : List ℝ) : ∀ m : ℝ, m ≤ ds.foldl (fun m d => if d > m then d else m) m ∧
    ∀ d ∈ ds, d ≤ ds.foldl (fun m d => if d > m then d else m) m := by
  induction ds with
  | nil => intro m; exact ⟨le_refl _, by simp⟩
  | cons a ds ih =>
    intro m
    rw [List.foldl_cons]
    by_cases h : a > m
    · rw [if_pos h]
      obtain ⟨h1, h2⟩ := ih a
      refine ⟨le_trans h.le h1, ?_⟩
      intro d hd
      rcases List.mem_cons.1 hd with rfl | hd
      · exact h1
      · exact h2 d hd
    · rw [if_neg h]
      obtain ⟨h1, h2⟩ := ih m
      refine ⟨h1, ?_⟩
      intro d hd
      rcases List.mem_cons.1 hd with rfl | hd
      · exact le_trans (not_lt.1 h) h1
      · exact h2 d hd

theorem scale_gt (ds : List ℝ) : 0 < scale ds ∧ ∀ d ∈ ds, 1.01 * (d + 0.01) ≤ scale ds := by
  obtain ⟨h1, h2⟩ := foldl_far ds 0
  unfold scale farthest
  constructor
  · nlinarith
  · intro d hd
    have := h2 d hd
    nlinarith

/-- The probability before the powers: never cut off at the lower bound. -/
theorem near_eq {ds : List ℝ} {d : ℝ} (hd : d ∈ ds) (h0 : 0 ≤ d) :
    near (scale ds) d = 1 - d / scale ds ∧ 0 < near (scale ds) d ∧ near (scale ds) d ≤ 1 := by
  obtain ⟨h1, h2⟩ := scale_gt ds
  have h3 := h2 d hd
  have e : (scale ds - d) / scale ds = 1 - d / scale ds := by rw [sub_div, div_self h1.ne']
  have hlow : (1 : ℝ) / 102 ≤ 1 - d / scale ds := by
    have : d / scale ds ≤ 101 / 102 := by
      rw [div_le_iff₀ h1]
      nlinarith
    linarith
  have hm : near (scale ds) d = 1 - d / scale ds := by
    unfold near
    rw [e]
    apply max_eq_right
    exact le_trans (by norm_num) hlow
  refine ⟨hm, ?_, ?_⟩
  · rw [hm]; linarith
  · rw [hm]
    have : 0 ≤ d / scale ds := div_nonneg h0 h1.le
    linarith

theorem obsProb_range {ds : List ℝ} {d : ℝ} (hd : d ∈ ds) (h0 : 0 ≤ d) (border : Bool) :
    0 < obsProb border (scale ds) d ∧ obsProb border (scale ds) d ≤ 1 := by
  obtain ⟨_, h1, h2⟩ := near_eq hd h0
  unfold obsProb
  cases border with
  | false => exact ⟨h1, h2⟩
  | true => exact ⟨Real.rpow_pos_of_pos h1 3, Real.rpow_le_one h1.le h2 (by norm_num)⟩

theorem obsProb_lt {ds : List ℝ} {d e : ℝ} (hd : d ∈ ds) (he : e ∈ ds) (h0 : 0 ≤ d) (h : d < e) (border : Bool) :
    obsProb border (scale ds) e < obsProb border (scale ds) d := by
  obtain ⟨e1, h1, _⟩ := near_eq hd h0
  obtain ⟨e2, h2, _⟩ := near_eq he (h0.trans h.le)
  have hs := (scale_gt ds).1
  have hlt : near (scale ds) e < near (scale ds) d := by
    rw [e1, e2]
    have := div_lt_div_of_pos_right h hs
    linarith
  unfold obsProb
  cases border with
  | false => exact hlt
  | true => exact Real.rpow_lt_rpow h2.le hlt (by norm_num)

/-- **C72, observations.**  Each candidate of a point has one weight; its probability is positive and at most one, so that the
weight is finite and not positive.  A nearer candidate is never less likely, and more likely if the factor is positive. -/
theorem observation_weights (f : Factors) (n index : Nat) {ds : List ℝ} (h : ∀ d ∈ ds, 0 ≤ d) (hf : 0 ≤ f.distance) :
    (observations f n index ds).length = ds.length ∧
    (∀ w ∈ observations f n index ds, w ≤ 0 ∧ ∃ p, 0 < p ∧ p ≤ 1 ∧ w = Real.log p) ∧
    ∀ i j, ∀ hi : i < ds.length, ∀ hj : j < ds.length, ∀ hi' : i < (observations f n index ds).length,
      ∀ hj' : j < (observations f n index ds).length,
      (ds[i] ≤ ds[j] → (observations f n index ds)[j] ≤ (observations f n index ds)[i]) ∧
      (ds[i] < ds[j] → 0 < f.distance → (observations f n index ds)[j] < (observations f n index ds)[i]) := by
  refine ⟨by simp [observations], ?_, ?_⟩
  · intro w hw
    obtain ⟨d, hd, rfl⟩ := List.mem_map.1 hw
    obtain ⟨h1, h2⟩ := obsProb_range hd (h d hd) (decide (index = 0 ∨ n ≤ index + 1))
    exact ⟨weight_nonpos h1 h2 hf, _, Real.rpow_pos_of_pos h1 _, Real.rpow_le_one h1.le h2 hf, rfl⟩
  · intro i j hi hj hi' hj'
    simp only [observations, List.getElem_map]
    have mi := List.getElem_mem hi
    have mj := List.getElem_mem hj
    have ri := obsProb_range mi (h _ mi) (decide (index = 0 ∨ n ≤ index + 1))
    have rj := obsProb_range mj (h _ mj) (decide (index = 0 ∨ n ≤ index + 1))
    constructor
    · intro hle
      rcases hle.lt_or_eq with hlt | heq
      · exact weight_mono rj.1 (obsProb_lt mi mj (h _ mi) hlt _).le hf
      · rw [heq]
    · intro hlt hpos
      exact weight_strict rj.1 (obsProb_lt mi mj (h _ mi) hlt _) hpos

/-- Candidates at 0, 5 and 10 metres. -/
example : scale [5, 0, 10] = 10.1101 ∧ near (scale [5, 0, 10]) 10 = 0.1101 / 10.1101 := by
  have h : scale [5, 0, 10] = 10.1101 := by norm_num [scale, farthest]
  refine ⟨h, ?_⟩
  rw [h]
  unfold near
  rw [max_eq_right] <;> norm_num

/-! ### Transitions -/

theorem ratio_long {n r : ℝ} (hn : 0 < n) (h : n ≤ r) : 1 - |n - r| / max n r = n / r := by
  have hr : 0 < r := lt_of_lt_of_le hn h
  rw [max_eq_right h, abs_of_nonpos (by linarith)]
  field_simp
  ring

theorem ratio_short {n r : ℝ} (hr : 0 < r) (h : r ≤ n) : 1 - |n - r| / max n r = r / n := by
  have hn : 0 < n := lt_of_lt_of_le hr h
  rw [max_eq_left h, abs_of_nonneg (by linarith)]
  field_simp
  ring

/-- The probability of a length as a function of the shorter and the longer one. -/
theorem lengthProb_long {n r : ℝ} (hn : 0 < n) (h : n ≤ r) :
    lengthProb n r = max 1e-20 (n / r) * (n / r) * (if 10 * n < r then 0.01 else 1) := by
  have hr : 0 < r := lt_of_lt_of_le hn h
  unfold lengthProb
  rw [if_pos ⟨hr, hn⟩, ratio_long hn h]
  have e : (if 1 < r / n then 1 / (r / n) else r / n) = n / r := by
    split_ifs with h1
    · rw [one_div_div]
    · have : r / n = 1 := le_antisymm (not_lt.1 h1) ((one_le_div hn).2 h)
      rw [this, ← one_div_div, this]; norm_num
  rw [e]
  congr 1
  simp only [lt_div_iff₀ hn]

theorem lengthProb_short {n r : ℝ} (hr : 0 < r) (h : r ≤ n) : lengthProb n r = max 1e-20 (r / n) * (r / n) := by
  have hn : 0 < n := lt_of_lt_of_le hr h
  unfold lengthProb
  have h1 : r / n ≤ 1 := (div_le_one hn).2 h
  rw [if_pos ⟨hr, hn⟩, ratio_short hr h, if_neg (not_lt.2 h1), if_neg (by linarith), mul_one]

theorem lengthProb_range {n r : ℝ} (hn : 0 < n) (hr : 0 < r) : 0 < lengthProb n r ∧ lengthProb n r ≤ 1 := by
  rcases le_total n r with h | h
  · rw [lengthProb_long hn h]
    have h1 : n / r ≤ 1 := (div_le_one hr).2 h
    have h0 : 0 < n / r := div_pos hn hr
    have hm0 : (0 : ℝ) < max 1e-20 (n / r) := lt_max_of_lt_right h0
    have hm1 : max 1e-20 (n / r) ≤ 1 := max_le (by norm_num) h1
    have hc0 : (0 : ℝ) < (if 10 * n < r then 0.01 else 1) := by split_ifs <;> norm_num
    have hc1 : (if 10 * n < r then 0.01 else 1) ≤ (1 : ℝ) := by split_ifs <;> norm_num
    exact ⟨mul_pos (mul_pos hm0 h0) hc0, mul_le_one₀ (mul_le_one₀ hm1 h0.le h1) hc0.le hc1⟩
  · rw [lengthProb_short hr h]
    have h1 : r / n ≤ 1 := (div_le_one hn).2 h
    have h0 : 0 < r / n := div_pos hr hn
    have hm0 : (0 : ℝ) < max 1e-20 (r / n) := lt_max_of_lt_right h0
    exact ⟨mul_pos hm0 h0, mul_le_one₀ (max_le (by norm_num) h1) h0.le h1⟩

/-- **C72, lengths.**  A route as long as the track is the most likely one; the further away from that, longer or shorter, the
less likely. -/
theorem length_weight (f : Factors) (hf : 0 ≤ f.length) {n : ℝ} (hn : 0 < n) :
    weight (lengthProb n n) f.length = 0 ∧
    (∀ r s, n ≤ r → r ≤ s → weight (lengthProb n s) f.length ≤ weight (lengthProb n r) f.length) ∧
    (∀ r s, 0 < r → r ≤ s → s ≤ n → weight (lengthProb n r) f.length ≤ weight (lengthProb n s) f.length) ∧
    (0 < f.length → ∀ r, 0 < r → r ≠ n → weight (lengthProb n r) f.length < 0) := by
  have h1 : lengthProb n n = 1 := by
    rw [lengthProb_short hn (le_refl n), div_self hn.ne', max_eq_right (by norm_num), mul_one]
  refine ⟨by rw [h1, weight_eq one_pos, Real.log_one, mul_zero], ?_, ?_, ?_⟩
  · intro r s hr hs
    have hr0 : 0 < r := lt_of_lt_of_le hn hr
    have hs0 : 0 < s := lt_of_lt_of_le hr0 hs
    apply weight_mono (lengthProb_range hn hs0).1 _ hf
    rw [lengthProb_long hn hr, lengthProb_long hn (hr.trans hs)]
    have hq : n / s ≤ n / r := div_le_div_of_nonneg_left hn.le hr0 hs
    have h0 : 0 < n / s := div_pos hn hs0
    have hm : max 1e-20 (n / s) ≤ max 1e-20 (n / r) := max_le_max le_rfl hq
    have hm0 : (0 : ℝ) ≤ max 1e-20 (n / s) := le_max_of_le_right h0.le
    have hc : (if 10 * n < s then 0.01 else 1) ≤ (if 10 * n < r then 0.01 else (1 : ℝ)) := by
      split_ifs with a b b
      · exact le_rfl
      · norm_num
      · exact absurd (lt_of_lt_of_le b hs) a
      · exact le_rfl
    have hc0 : (0 : ℝ) ≤ (if 10 * n < s then 0.01 else 1) := by split_ifs <;> norm_num
    exact mul_le_mul (mul_le_mul hm hq h0.le (hm0.trans hm)) hc hc0 (mul_nonneg (hm0.trans hm) (h0.le.trans hq))
  · intro r s hr hs hn'
    have hs0 : 0 < s := lt_of_lt_of_le hr hs
    apply weight_mono (lengthProb_range hn hr).1 _ hf
    rw [lengthProb_short hr (hs.trans hn'), lengthProb_short hs0 hn']
    have hq : r / n ≤ s / n := div_le_div_of_nonneg_right hs hn.le
    have h0 : 0 < r / n := div_pos hr hn
    exact mul_le_mul (max_le_max le_rfl hq) hq h0.le (le_max_of_le_right (h0.le.trans hq))
  · intro hpos r hr hne
    have hlt : lengthProb n r < 1 := by
      rcases lt_or_gt_of_ne hne with h | h
      · rw [lengthProb_short hr h.le]
        have h1 : r / n < 1 := (div_lt_one hn).2 h
        have h0 : 0 < r / n := div_pos hr hn
        exact mul_lt_one_of_nonneg_of_lt_one_right (max_le (by norm_num) h1.le) h0.le h1
      · rw [lengthProb_long hn h.le]
        have h1 : n / r < 1 := (div_lt_one hr).2 h
        have h0 : 0 < n / r := div_pos hn hr
        have h2 := mul_lt_one_of_nonneg_of_lt_one_right (a := max 1e-20 (n / r)) (max_le (by norm_num) h1.le) h0.le h1
        have hc1 : (if 10 * n < r then 0.01 else 1) ≤ (1 : ℝ) := by split_ifs <;> norm_num
        have h3 : (0 : ℝ) ≤ max 1e-20 (n / r) * (n / r) := mul_nonneg (le_max_of_le_right h0.le) h0.le
        exact lt_of_le_of_lt (mul_le_of_le_one_right h3 hc1) h2
    rw [weight_eq (lengthProb_range hn hr).1]
    exact mul_neg_of_pos_of_neg hpos (Real.log_neg (lengthProb_range hn hr).1 hlt)

example : lengthProb 100 50 = 0.25 ∧ lengthProb 100 200 = 0.25 ∧ lengthProb 100 2000 = 0.000025 := by
  refine ⟨?_, ?_, ?_⟩
  · rw [lengthProb_short (by norm_num) (by norm_num), max_eq_right] <;> norm_num
  · rw [lengthProb_long (by norm_num) (by norm_num), max_eq_right] <;> norm_num
  · rw [lengthProb_long (by norm_num) (by norm_num), max_eq_right] <;> norm_num

/-- **C72, C73, turns.**  The difference of the change of direction of the track and that of the route, both from the azimuth
of the track before, is the difference of the azimuths of the track and the route. -/
theorem turn_is_azimuth {c n r : ℝ} (hc : 0 ≤ c ∧ c ≤ 360) (hn : 0 ≤ n ∧ n ≤ 360) (hr : 0 ≤ r ∧ r ≤ 360) :
    |angleDiff (angleDiff c n) (angleDiff c r)| = |angleDiff n r| := by
  unfold angleDiff
  obtain ⟨c1, c2⟩ := hc
  obtain ⟨n1, n2⟩ := hn
  obtain ⟨r1, r2⟩ := hr
  split_ifs <;> first
    | (exfalso; linarith)
    | (rw [← abs_neg]; congr 1; linarith)
    | (congr 1; linarith)

example : |angleDiff (angleDiff 350 10) (angleDiff 350 200)| = (170 : ℝ) := by
  rw [turn_is_azimuth] <;> norm_num [angleDiff]

/-- What the weights depend on is as it comes from routes and tracks: lengths and angles are not negative, azimuths are those of
a compass, the change of direction is that from the azimuth before to the azimuth of the track. -/
structure LegOk (l : Leg) : Prop where
  route : ∀ r, l.routeLength = some r → 0 < r
  track : ∀ n, l.trackLength = some n → 0 < n
  azRoute : ∀ a, l.routeAzimuth = some a → 0 ≤ a ∧ a ≤ 360
  azTrack : ∀ a, l.trackAzimuth = some a → 0 ≤ a ∧ a ≤ 360
  turns : ∀ t, l.turn = some t → (0 ≤ t.1 ∧ t.1 ≤ 360) ∧ ∃ a, l.trackAzimuth = some a ∧ t.2 = angleDiff t.1 a
  dirs : ∀ a, l.routeDirections = some a → 0 ≤ a

/-- Settings without negative factors. -/
structure FactorsOk (f : Factors) : Prop where
  distance : 0 ≤ f.distance
  length : 0 ≤ f.length
  azimuth : 0 ≤ f.azimuth
  direction : 0 ≤ f.direction
  turn : 0 ≤ f.turn

theorem angle_prob_range (m x : ℝ) (hm : 0 < m) (hx : 0 ≤ x) :
    0 < max 1e-20 ((m - x) / m) ∧ max 1e-20 ((m - x) / m) ≤ 1 := by
  refine ⟨lt_max_of_lt_left (by norm_num), max_le (by norm_num) ?_⟩
  rw [div_le_one hm]
  linarith

theorem angle_prob_mono (m x y : ℝ) (hm : 0 < m) (h : x ≤ y) : max 1e-20 ((m - y) / m) ≤ max 1e-20 ((m - x) / m) := by
  refine max_le_max le_rfl (div_le_div_of_nonneg_right ?_ hm.le)
  linarith

theorem length_pos {o : Option ℝ} (h : ∀ r, o = some r → 0 < r) : 0 < o.getD 1 := by
  cases o with
  | none => simp
  | some r => simpa using h r rfl

theorem azimuthWeight_nonpos {f : Factors} (hf : FactorsOk f) (l : Leg) : azimuthWeight f l ≤ 0 := by
  unfold azimuthWeight
  cases l.routeAzimuth with
  | none => exact le_rfl
  | some az =>
    have r1 := angle_prob_range 180 |angleDiff (l.trackAzimuth.getD az) az| (by norm_num) (abs_nonneg _)
    have h1 : weight (azimuthProb (l.trackAzimuth.getD az) az) f.azimuth ≤ 0 := weight_nonpos r1.1 r1.2 hf.azimuth
    have h2 : turnWeight f l az ≤ 0 := by
      unfold turnWeight
      cases l.turn with
      | none => exact le_rfl
      | some t =>
        have r2 := angle_prob_range 360 |angleDiff t.2 (angleDiff t.1 az)| (by norm_num) (abs_nonneg _)
        exact weight_nonpos r2.1 r2.2 hf.turn
    show _ + _ ≤ 0
    linarith

theorem directionsWeight_nonpos {f : Factors} (hf : FactorsOk f) {l : Leg} (hl : LegOk l) : directionsWeight f l ≤ 0 := by
  unfold directionsWeight
  cases h : l.routeDirections with
  | none => exact le_rfl
  | some a =>
    have r := angle_prob_range 360 a (by norm_num) (hl.dirs a h)
    exact weight_nonpos r.1 r.2 hf.direction

/-- **C72, transitions.**  A transition is impossible exactly if there is no route; no other weight is positive, and staying at
the same point costs nothing. -/
theorem transition_weights {f : Factors} (hf : FactorsOk f) {l : Leg} (hl : LegOk l) :
    (transition f l = ⊥ ↔ l.invalid = true) ∧ transition f l ≤ ((0 : ℝ) : WithBot ℝ) ∧
    (l.invalid = false → l.same = true → l.routeLength = none → transition f l = ((0 : ℝ) : WithBot ℝ)) := by
  have h1 := lengthProb_range (length_pos hl.track) (length_pos hl.route)
  have hw := weight_nonpos h1.1 h1.2 hf.length
  have h2 := azimuthWeight_nonpos hf l
  have h3 := directionsWeight_nonpos hf hl
  unfold transition
  refine ⟨?_, ?_, ?_⟩
  · cases l.invalid with
    | true => simp
    | false =>
      by_cases hs : (l.same && l.routeLength.isNone) = true
      · simp [hs]
      · simp only [Bool.false_eq_true, if_false, if_neg hs, iff_false]
        exact WithBot.coe_ne_bot
  · cases l.invalid with
    | true => simp
    | false =>
      by_cases hs : (l.same && l.routeLength.isNone) = true
      · simp [hs]
      · simp only [Bool.false_eq_true, if_false, if_neg hs]
        rw [WithBot.coe_le_coe]
        linarith
  · intro a b c
    simp [a, b, c]

/-- A route turning away from the track by 90 degrees. -/
def demoLeg : Leg := ⟨false, false, some 100, some 100, some 90, some 0, some (0, 0), some 90⟩

example : LegOk demoLeg := by
  refine ⟨?_, ?_, ?_, ?_, ?_, ?_⟩ <;> intro r hr <;> simp only [demoLeg, Option.some.injEq] at hr <;> subst hr <;>
    norm_num [demoLeg, angleDiff]

/-- The route of `m` is no worse than that of `l` in any respect: its length is nearer to that of the track on the same side,
its azimuth is nearer to that of the track, it turns less. -/
structure NoWorse (l m : Leg) : Prop where
  trackLength : m.trackLength = l.trackLength
  trackAzimuth : m.trackAzimuth = l.trackAzimuth
  turn : m.turn = l.turn
  lengths : ∃ n r s, l.trackLength = some n ∧ l.routeLength = some r ∧ m.routeLength = some s ∧
    (n ≤ s ∧ s ≤ r ∨ r ≤ s ∧ s ≤ n)
  azimuths : ∃ n a b, l.trackAzimuth = some n ∧ l.routeAzimuth = some a ∧ m.routeAzimuth = some b ∧
    |angleDiff n b| ≤ |angleDiff n a|
  directions : ∃ a b, l.routeDirections = some a ∧ m.routeDirections = some b ∧ b ≤ a

/-- **C72, routes.**  A route that is no worse in any respect is at least as likely. -/
theorem better_route_likelier {f : Factors} (hf : FactorsOk f) {l m : Leg} (hl : LegOk l) (hm : LegOk m)
    (h : NoWorse l m) (hv : m.invalid = false) : transition f l ≤ transition f m := by
  obtain ⟨t1, t2, t3, ⟨n, r, s, e1, e2, e3, hlen⟩, ⟨na, a, b, f1, f2, f3, haz⟩, ⟨da, db, g1, g2, hdir⟩⟩ := h
  unfold transition
  cases l.invalid with
  | true => simp
  | false =>
    rw [hv]
    simp only [Bool.false_eq_true, if_false, e2, e3, Option.isNone_some, Bool.and_false, t1, e1, Option.getD_some]
    rw [WithBot.coe_le_coe]
    have hn := hl.track n e1
    have k1 : weight (lengthProb n r) f.length ≤ weight (lengthProb n s) f.length := by
      obtain ⟨_, w1, w2, _⟩ := length_weight f hf.length hn
      rcases hlen with ⟨a1, a2⟩ | ⟨a1, a2⟩
      · exact w1 s r a1 a2
      · exact w2 r s (hl.route r e2) a1 a2
    have k2 : azimuthWeight f l ≤ azimuthWeight f m := by
      unfold azimuthWeight
      rw [f2, f3]
      simp only [t2, f1, Option.getD_some]
      have p1 : weight (azimuthProb na a) f.azimuth ≤ weight (azimuthProb na b) f.azimuth :=
        weight_mono (angle_prob_range 180 _ (by norm_num) (abs_nonneg _)).1 (angle_prob_mono 180 _ _ (by norm_num) haz) hf.azimuth
      have p2 : turnWeight f l a ≤ turnWeight f m b := by
        unfold turnWeight
        rw [t3]
        cases ht : l.turn with
        | none => exact le_rfl
        | some t =>
          obtain ⟨ht1, az, haz', ht2⟩ := hl.turns t ht
          rw [f1] at haz'
          obtain rfl := Option.some.inj haz'
          refine weight_mono (angle_prob_range 360 _ (by norm_num) (abs_nonneg _)).1
            (angle_prob_mono 360 _ _ (by norm_num) ?_) hf.turn
          rw [ht2, turn_is_azimuth ht1 (hl.azTrack _ f1) (hm.azRoute _ f3), turn_is_azimuth ht1 (hl.azTrack _ f1) (hl.azRoute _ f2)]
          exact haz
      linarith
    have k3 : directionsWeight f l ≤ directionsWeight f m := by
      unfold directionsWeight
      rw [g1, g2]
      exact weight_mono (angle_prob_range 360 _ (by norm_num) (hl.dirs _ g1)).1 (angle_prob_mono 360 _ _ (by norm_num) hdir) hf.direction
    linarith

example : NoWorse demoLeg { demoLeg with routeAzimuth := some 350, routeDirections := some 0 } := by
  refine ⟨rfl, rfl, rfl, ⟨100, 100, 100, rfl, rfl, rfl, Or.inl ⟨le_rfl, le_rfl⟩⟩, ⟨0, 90, 350, rfl, rfl, rfl, ?_⟩, ⟨90, 0, rfl, rfl, by norm_num⟩⟩
  norm_num [angleDiff]

/-- **C72, first point.**  All candidates of the first point together have probability one. -/
theorem initial_uniform (n : Nat) (h : 0 < n) : n * Real.exp (initial n) = 1 := by
  have hn : (0 : ℝ) < n := by exact_mod_cast h
  unfold initial
  rw [Real.exp_log (one_div_pos.2 hn)]
  field_simp

example : initial 1 = 0 := by simp [initial]

/-! ### The decoded sequence -/

/-- `σ` chooses a candidate of each point from `t0` on, with a route from each to the next. -/
def Path (dists : List (List ℝ)) (leg : Nat → Nat → Nat → Leg) (t0 : Nat) (σ : Nat → Nat) : Prop :=
  ∀ t, t0 ≤ t → t < dists.length → σ t < (dists.getD t []).length ∧ (t0 < t → (leg t (σ t) (σ (t - 1))).invalid = false)

/-- The sum of the weights of the candidates and of the routes of `σ`, up to point `t`. -/
noncomputable def score (f : Factors) (dists : List (List ℝ)) (leg : Nat → Nat → Nat → Leg) (t0 : Nat) (σ : Nat → Nat)
    (t : Nat) : ℝ :=
  ∑ s ∈ Finset.Ico t0 (t + 1), (observations f dists.length s (dists.getD s [])).getD (σ s) 0 +
  ∑ s ∈ Finset.Ico (t0 + 1) (t + 1), (transition f (leg s (σ s) (σ (s - 1)))).unbotD 0

theorem hmm_lawful (f : Factors) (dists : List (List ℝ)) (leg : Nat → Nat → Nat → Leg) :
    Viterbi.Lawful (hmmOf f dists leg) := by
  refine ⟨?_, ?_⟩
  · intro a b x y h
    show a + x + y ≤ b + x + y
    gcongr
  · intro x y
    show ⊥ + x + y = ⊥
    simp

theorem transition_bot (f : Factors) (l : Leg) : transition f l = ⊥ ↔ l.invalid = true := by
  unfold transition
  cases l.invalid with
  | true => simp
  | false =>
    by_cases hs : (l.same && l.routeLength.isNone) = true
    · simp [hs]
    · simp only [Bool.false_eq_true, if_false, if_neg hs, iff_false]
      exact WithBot.coe_ne_bot

/-- Up to a constant, the joint weight is the score; it is minus infinity if a route is missing. -/
theorem joint_score (f : Factors) (dists : List (List ℝ)) (leg : Nat → Nat → Nat → Leg) (t0 : Nat) (σ : Nat → Nat) :
    ∀ t, t0 ≤ t →
    ((∀ s, t0 < s → s ≤ t → (leg s (σ s) (σ (s - 1))).invalid = false) →
      Viterbi.joint (hmmOf f dists leg) t0 σ t = ((initial (dists.getD t0 []).length + score f dists leg t0 σ t : ℝ) : WithBot ℝ)) ∧
    ((∃ s, t0 < s ∧ s ≤ t ∧ (leg s (σ s) (σ (s - 1))).invalid = true) →
      Viterbi.joint (hmmOf f dists leg) t0 σ t = ⊥) := by
  have base : score f dists leg t0 σ t0 = (observations f dists.length t0 (dists.getD t0 [])).getD (σ t0) 0 := by
    simp [score]
  have first : Viterbi.joint (hmmOf f dists leg) t0 σ t0 =
      ((initial (dists.getD t0 []).length + score f dists leg t0 σ t0 : ℝ) : WithBot ℝ) := by
    rw [base]
    cases t0 with
    | zero => simp [Viterbi.joint, hmmOf]
    | succ t0 => simp [Viterbi.joint, hmmOf]
  intro t ht
  induction t, ht using Nat.le_induction with
  | base =>
    refine ⟨fun _ => first, ?_⟩
    rintro ⟨s, h1, h2, _⟩
    omega
  | succ t ht ih =>
    have hne : t + 1 ≠ t0 := by omega
    have step : Viterbi.joint (hmmOf f dists leg) t0 σ (t + 1) =
        Viterbi.joint (hmmOf f dists leg) t0 σ t + transition f (leg (t + 1) (σ (t + 1)) (σ t)) +
          (((observations f dists.length (t + 1) (dists.getD (t + 1) [])).getD (σ (t + 1)) 0 : ℝ) : WithBot ℝ) := by
      rw [Viterbi.joint, if_neg hne]
      simp [hmmOf]
    constructor
    · intro hv
      rw [step, ih.1 (fun s h1 h2 => hv s h1 (by omega))]
      have hi : transition f (leg (t + 1) (σ (t + 1)) (σ t)) ≠ ⊥ := by
        rw [Ne, transition_bot]
        have := hv (t + 1) (by omega) le_rfl
        simp only [Nat.add_sub_cancel] at this
        simp [this]
      obtain ⟨w, hw⟩ := WithBot.ne_bot_iff_exists.1 hi
      rw [← hw, ← WithBot.coe_add, ← WithBot.coe_add]
      congr 1
      unfold score
      rw [Finset.sum_Ico_succ_top (show t0 ≤ t + 1 by omega), Finset.sum_Ico_succ_top (show t0 + 1 ≤ t + 1 by omega)]
      simp only [Nat.add_sub_cancel, ← hw, WithBot.unbotD_coe]
      ring
    · rintro ⟨s, h1, h2, h3⟩
      rw [step]
      by_cases hs : s = t + 1
      · subst hs
        simp only [Nat.add_sub_cancel] at h3
        rw [(transition_bot f _).2 h3]
        simp
      · rw [ih.2 ⟨s, h1, by omega, h3⟩]
        simp

/-- **C72, matching.**  If candidates can be chosen such that there is a route from each to the next, then the decoder chooses
such candidates, one for each point from the first one with candidates on, and no other such choice has a greater sum of
weights. -/
theorem decoded_best (f : Factors) (dists : List (List ℝ)) (leg : Nat → Nat → Nat → Leg) (t0 : Nat) (ht : t0 < dists.length)
    (h0 : dists.getD t0 [] ≠ []) (hb : ∀ s, s < t0 → dists.getD s [] = []) (hp : ∃ σ, Path dists leg t0 σ) :
    ∃ σ, Viterbi.policy (hmmOf f dists leg) = (List.range' t0 (dists.length - t0)).map (fun t => (t, σ t)) ∧
      Path dists leg t0 σ ∧
      ∀ σ', Path dists leg t0 σ' →
        score f dists leg t0 σ' (dists.length - 1) ≤ score f dists leg t0 σ (dists.length - 1) := by
  have hs : Viterbi.Starts (hmmOf f dists leg) t0 := by
    refine ⟨List.length_pos_iff.2 h0, ?_⟩
    intro s hs
    show (dists.getD s []).length = 0
    rw [hb s hs]; rfl
  have hlast : t0 ≤ dists.length - 1 := by omega
  have toV : ∀ σ, Path dists leg t0 σ → Viterbi.Valid (hmmOf f dists leg) t0 (dists.length - 1) σ :=
    fun σ h s h1 h2 => (h s h1 (by omega)).1
  have toJ : ∀ σ, Path dists leg t0 σ → Viterbi.joint (hmmOf f dists leg) t0 σ (dists.length - 1) =
      ((initial (dists.getD t0 []).length + score f dists leg t0 σ (dists.length - 1) : ℝ) : WithBot ℝ) :=
    fun σ h => (joint_score f dists leg t0 σ _ hlast).1 (fun s h1 h2 => (h s h1.le (by omega)).2 h1)
  obtain ⟨σ₀, h₀⟩ := hp
  obtain ⟨σ, e, hv, hbest⟩ := Viterbi.viterbi_optimal (hmmOf f dists leg) (hmm_lawful f dists leg) t0 hs ht
    ⟨σ₀, toV σ₀ h₀, by
      show ⊥ < Viterbi.joint (hmmOf f dists leg) t0 σ₀ (dists.length - 1)
      rw [toJ σ₀ h₀]; exact WithBot.bot_lt_coe _⟩
  have hpath : Path dists leg t0 σ := by
    intro t h1 h2
    refine ⟨hv t h1 (by show t ≤ dists.length - 1; omega), ?_⟩
    intro h3
    by_contra hinv
    have hb := (joint_score f dists leg t0 σ _ hlast).2 ⟨t, h3, by omega, by simpa using hinv⟩
    have := hbest σ₀ (toV σ₀ h₀)
    have e2 := toJ σ₀ h₀
    change Viterbi.joint (hmmOf f dists leg) t0 σ₀ (dists.length - 1) ≤
      Viterbi.joint (hmmOf f dists leg) t0 σ (dists.length - 1) at this
    rw [hb, e2] at this
    exact absurd this (by simp)
  refine ⟨σ, e, hpath, ?_⟩
  intro σ' h'
  have := hbest σ' (toV σ' h')
  change Viterbi.joint (hmmOf f dists leg) t0 σ' (dists.length - 1) ≤
    Viterbi.joint (hmmOf f dists leg) t0 σ (dists.length - 1) at this
  rw [toJ σ' h', toJ σ hpath, WithBot.coe_le_coe] at this
  linarith

/-- **C72, no match.**  If candidates cannot be chosen such that there is a route from each to the next, nothing is matched. -/
theorem decoded_none (f : Factors) (dists : List (List ℝ)) (leg : Nat → Nat → Nat → Leg) (t0 : Nat) (ht : t0 < dists.length)
    (h0 : dists.getD t0 [] ≠ []) (hb : ∀ s, s < t0 → dists.getD s [] = []) (hp : ¬ ∃ σ, Path dists leg t0 σ) :
    Viterbi.policy (hmmOf f dists leg) = [] := by
  have hs : Viterbi.Starts (hmmOf f dists leg) t0 := by
    refine ⟨List.length_pos_iff.2 h0, ?_⟩
    intro s hs
    show (dists.getD s []).length = 0
    rw [hb s hs]; rfl
  apply Viterbi.viterbi_empty (hmmOf f dists leg) (hmm_lawful f dists leg) t0 hs ht
  intro σ hv
  show Viterbi.joint (hmmOf f dists leg) t0 σ (dists.length - 1) = ⊥
  apply (joint_score f dists leg t0 σ _ (by omega)).2
  by_contra hc
  apply hp
  refine ⟨σ, fun t h1 h2 => ⟨hv t h1 (by show t ≤ dists.length - 1; omega), ?_⟩⟩
  intro h3
  by_contra hinv
  exact hc ⟨t, h3, by omega, by simpa using hinv⟩

/-- A first point without candidates, then two points with two candidates each; only from the second candidate there are
routes. -/
example : ∃ σ, Path [[], [3, 4], [1, 2]] (fun _ _ s => { demoLeg with invalid := s == 0 }) 1 σ := by
  refine ⟨fun _ => 1, ?_⟩
  intro t h1 h2
  have : t = 1 ∨ t = 2 := by simp at h2; omega
  rcases this with rfl | rfl <;> simp

/-- A single point without routes. -/
example : ¬ ∃ σ, Path [[3, 4], [1, 2]] (fun _ _ _ => { demoLeg with invalid := true }) 0 σ := by
  rintro ⟨σ, h⟩
  have := (h 1 (by omega) (by simp)).2 (by omega)
  simp at this

/-- **C72 needs factors that are not negative**, though the options accept others: the farthest candidate gets the greatest weight, and the
weights are positive. -/
theorem negative_factor_reverses : ∃ f : Factors, f.distance < 0 ∧
    (observations f 3 1 [0, 10])[0]? = some 0 ∧ ∃ w, (observations f 3 1 [0, 10])[1]? = some w ∧ 0 < w := by
  refine ⟨⟨-1, 1, 1, 1, 1⟩, by norm_num, ?_, ?_⟩
  · simp only [observations, List.map_cons, List.getElem?_cons_zero]
    obtain ⟨h1, h2, _⟩ := near_eq (ds := [0, 10]) (d := 0) (by simp) le_rfl
    have e : obsProb (decide (1 = 0 ∨ 3 ≤ 1 + 1)) (scale [0, 10]) 0 = 1 := by
      simp [obsProb, h1]
    rw [e, weight_eq one_pos]
    simp
  · refine ⟨weight (obsProb (decide (1 = 0 ∨ 3 ≤ 1 + 1)) (scale [0, 10]) 10) (-1), rfl, ?_⟩
    obtain ⟨h1, h2, _⟩ := near_eq (ds := [0, 10]) (d := 10) (by simp) (by norm_num)
    have e : obsProb (decide (1 = 0 ∨ 3 ≤ 1 + 1)) (scale [0, 10]) 10 = near (scale [0, 10]) 10 := by simp [obsProb]
    rw [e, weight_eq h2]
    have hlt : near (scale [0, 10]) 10 < 1 := by
      rw [h1]
      have := div_pos (show (0 : ℝ) < 10 by norm_num) (scale_gt [0, 10]).1
      linarith
    have := Real.log_neg h2 hlt
    show 0 < -1 * Real.log _
    linarith

/-! ### Rewards of the decision process -/

/-- As `LegOk`, for steps of the decision process. -/
structure StepOk (s : Step) : Prop where
  next : 0 ≤ s.nextDist
  current : 0 ≤ s.currentDist
  route : ∀ r, s.routeLength = some r → 0 ≤ r
  track : ∀ n, s.trackLength = some n → 0 ≤ n
  azRoute : ∀ a, s.routeAzimuth = some a → 0 ≤ a ∧ a ≤ 360
  azTrack : ∀ a, s.trackAzimuth = some a → 0 ≤ a ∧ a ≤ 360
  turns : ∀ t, s.turn = some t → (0 ≤ t.1 ∧ t.1 ≤ 360) ∧ ∃ a, s.trackAzimuth = some a ∧ t.2 = angleDiff t.1 a
  dirs : ∀ a, s.routeDirections = some a → 0 ≤ a

theorem distancePart_nonneg {f : Factors} (hf : FactorsOk f) {s : Step} (hs : StepOk s) : 0 ≤ distancePart f s := by
  unfold distancePart
  have := hf.distance; have := hs.next; have := hs.current
  cases s.last <;> simp only [Bool.false_eq_true, if_false, if_true] <;> positivity

theorem lengthPart_nonneg {f : Factors} (hf : FactorsOk f) (n r : ℝ) : 0 ≤ lengthPart f n r := by
  unfold lengthPart
  have := hf.length
  split_ifs with h
  · obtain ⟨h1, h2⟩ := h
    positivity
  · positivity

theorem azimuthPart_nonneg {f : Factors} (hf : FactorsOk f) (s : Step) : 0 ≤ azimuthPart f s := by
  unfold azimuthPart turnPart
  have := hf.azimuth; have := hf.turn
  cases s.routeAzimuth with
  | none => exact le_rfl
  | some az =>
    cases s.turn with
    | none => simp only; positivity
    | some t => simp only; positivity

theorem directionsPart_nonneg {f : Factors} (hf : FactorsOk f) {s : Step} (hs : StepOk s) : 0 ≤ directionsPart f s := by
  unfold directionsPart
  have := hf.direction
  cases h : s.routeDirections with
  | none => exact le_rfl
  | some a => exact mul_nonneg hf.direction (hs.dirs a h)

theorem foldl_add (l : List ℝ) : ∀ a, l.foldl (· + ·) a = a + l.sum := by
  induction l with
  | nil => simp
  | cons x l ih => intro a; rw [List.foldl_cons, ih, List.sum_cons]; ring

/-- **C73, rewards.**  No reward is positive. -/
theorem reward_nonpos {f : Factors} (hf : FactorsOk f) :
    (∀ b d, 0 ≤ d → firstReward f b d ≤ 0) ∧ (∀ s, StepOk s → stepReward f s ≤ 0) ∧
    (∀ c lengths, (∀ x, some x ∈ lengths → 0 ≤ x) → -failReward c lengths ≤ 0) ∧
    (∀ ds back, (∀ r, back = some r → 0 ≤ r) → -backPart f ds back ≤ 0) := by
  refine ⟨?_, ?_, ?_, ?_⟩
  · intro b d hd
    unfold firstReward
    have := hf.distance
    cases b
    · have : 0 ≤ f.distance * (d * 0.1) := by positivity
      simpa using this
    · have : 0 ≤ f.distance * (d * 3) := by positivity
      simpa using this
  · intro s hs
    unfold stepReward
    have := distancePart_nonneg hf hs
    have := lengthPart_nonneg hf (s.trackLength.getD 0) (s.routeLength.getD 0)
    have := azimuthPart_nonneg hf s
    have := directionsPart_nonneg hf hs
    by_cases h : (s.same && s.routeLength.isNone) = true
    · rw [if_pos h]
    · rw [if_neg h]; linarith
  · intro c lengths h
    unfold failReward
    rw [foldl_add]
    have : 0 ≤ ((lengths.drop c).filterMap id).sum := by
      apply List.sum_nonneg
      intro x hx
      obtain ⟨o, ho, e⟩ := List.mem_filterMap.1 hx
      simp only [id] at e
      subst e
      exact h x (List.mem_of_mem_drop ho)
    linarith
  · intro ds back h
    unfold backPart
    have := hf.turn
    have := hf.length
    cases ds with
    | none =>
      cases back with
      | none => simp
      | some r =>
        have h2 : 0 ≤ f.length * (r * 2) := mul_nonneg hf.length (mul_nonneg (h r rfl) (by norm_num))
        simp only; linarith
    | some d =>
      have h1 : 0 ≤ f.turn * |angleDiff d.1 d.2| := by positivity
      cases back with
      | none => simp only; linarith
      | some r =>
        have h2 : 0 ≤ f.length * (r * 2) := mul_nonneg hf.length (mul_nonneg (h r rfl) (by norm_num))
        simp only; linarith

/-- **C73, turning back.**  Where two routes do not meet nothing is charged; otherwise the change of direction between them, by the factor
for turns, and twice the length travelled forth and back, by the factor for lengths. -/
theorem back_charged (f : Factors) (a b r : ℝ) : backPart f none none = 0 ∧
    backPart f (some (a, b)) none = f.turn * |angleDiff a b| ∧ backPart f none (some r) = 2 * (f.length * r) ∧
    backPart f (some (a, b)) (some r) = f.turn * |angleDiff a b| + 2 * (f.length * r) := by
  unfold backPart
  refine ⟨by simp, by simp, ?_, ?_⟩ <;> simp only <;> ring

/-- **C73, lengths.**  A route as long as the track costs nothing, any other length something; the longer a route beyond the
length of the track, the more it costs; a step is turned into a skip exactly if the route is more than ten times as long. -/
theorem length_cost (f : Factors) (hf : 0 ≤ f.length) {n : ℝ} (hn : 0 < n) :
    lengthPart f n n = 0 ∧ (0 < f.length → ∀ r, 0 ≤ r → r ≠ n → 0 < lengthPart f n r) ∧
    (∀ r s, n ≤ r → r ≤ s → lengthPart f n r ≤ lengthPart f n s) ∧
    (∀ r, 0 ≤ r → (detour n r = true ↔ 10 * n < r)) := by
  refine ⟨by simp [lengthPart, hn], ?_, ?_, ?_⟩
  · intro hpos r hr hne
    have habs : 0 < |n - r| := abs_pos.2 (sub_ne_zero.2 hne.symm)
    unfold lengthPart
    split_ifs with h
    · have := div_pos h.1 hn
      positivity
    · positivity
  · intro r s hr hs
    have hr0 : 0 < r := lt_of_lt_of_le hn hr
    have hs0 : 0 < s := lt_of_lt_of_le hr0 hs
    unfold lengthPart
    rw [if_pos ⟨hr0, hn⟩, if_pos ⟨hs0, hn⟩]
    apply mul_le_mul_of_nonneg_left _ hf
    have h1 : |n - r| ≤ |n - s| := by
      rw [abs_of_nonpos (by linarith), abs_of_nonpos (by linarith)]; linarith
    have h2 : r / n ≤ s / n := div_le_div_of_nonneg_right hs hn.le
    exact mul_le_mul h1 h2 (div_pos hr0 hn).le (abs_nonneg _)
  · intro r hr
    unfold detour
    rw [decide_eq_true_iff, lt_div_iff₀ hn]
    constructor
    · exact fun h => h.2.2
    · exact fun h => ⟨by linarith, hn, h⟩

example : lengthPart ⟨1, 1, 1, 1, 1⟩ 100 200 = 200 := by norm_num [lengthPart]

/-- The step `u` is no worse than `s` in any respect, along a route that is not shorter than the track. -/
structure NoWorseStep (s u : Step) : Prop where
  last : u.last = s.last
  next : u.nextDist ≤ s.nextDist
  current : u.currentDist ≤ s.currentDist
  trackLength : u.trackLength = s.trackLength
  trackAzimuth : u.trackAzimuth = s.trackAzimuth
  turn : u.turn = s.turn
  lengths : ∃ n r q, s.trackLength = some n ∧ s.routeLength = some r ∧ u.routeLength = some q ∧ 0 < n ∧ n ≤ q ∧ q ≤ r
  azimuths : ∃ n a b, s.trackAzimuth = some n ∧ s.routeAzimuth = some a ∧ u.routeAzimuth = some b ∧
    |angleDiff n b| ≤ |angleDiff n a|
  directions : ∃ a b, s.routeDirections = some a ∧ u.routeDirections = some b ∧ b ≤ a

/-- **C73, steps (in part).**  Nearer candidates, a route less long beyond the length of the track, an azimuth nearer to that of
the track and fewer turns together never give a smaller reward.  Routes shorter than the track are not compared: see
`short_route_fails`. -/
theorem better_step_partial {f : Factors} (hf : FactorsOk f) {s u : Step} (hs : StepOk s) (hu : StepOk u)
    (h : NoWorseStep s u) : stepReward f s ≤ stepReward f u := by
  obtain ⟨l1, l2, l3, t1, t2, t3, ⟨n, r, q, e1, e2, e3, hn, hq, hr⟩, ⟨na, a, b, f1, f2, f3, haz⟩, ⟨da, db, g1, g2, hdir⟩⟩ := h
  unfold stepReward
  simp only [e2, e3, Option.isNone_some, Bool.and_false, Bool.false_eq_true, if_false, t1, e1, Option.getD_some]
  have k0 : distancePart f u ≤ distancePart f s := by
    unfold distancePart
    rw [l1]
    have h1 := mul_le_mul_of_nonneg_left (add_le_add l2 l3) hf.distance
    have h2 := mul_le_mul_of_nonneg_left (mul_le_mul_of_nonneg_right l2 (show (0 : ℝ) ≤ 2 by norm_num)) hf.distance
    cases s.last <;> simp only [Bool.false_eq_true, if_false, if_true] <;> linarith
  have k1 : lengthPart f n q ≤ lengthPart f n r := (length_cost f hf.length hn).2.2.1 q r hq hr
  have k2 : azimuthPart f u ≤ azimuthPart f s := by
    unfold azimuthPart turnPart
    rw [f2, f3]
    simp only [t2, t3, f1, Option.getD_some]
    have p1 := mul_le_mul_of_nonneg_left haz hf.azimuth
    cases ht : s.turn with
    | none => simp only; linarith
    | some t =>
      obtain ⟨ht1, az, haz', ht2⟩ := hs.turns t ht
      rw [f1] at haz'
      obtain rfl := Option.some.inj haz'
      simp only [ht2]
      rw [turn_is_azimuth ht1 (hs.azTrack _ f1) (hu.azRoute _ f3), turn_is_azimuth ht1 (hs.azTrack _ f1) (hs.azRoute _ f2)]
      have p2 := mul_le_mul_of_nonneg_left haz hf.turn
      linarith
  have k3 : directionsPart f u ≤ directionsPart f s := by
    unfold directionsPart
    rw [g1, g2]
    exact mul_le_mul_of_nonneg_left hdir hf.direction
  linarith

/-- A last step of 100 metres northwards with a route of 150 metres. -/
def demoStep : Step := ⟨10, 20, true, false, some 100, some 150, some 90, some 0, some (0, 0), some 90⟩

example : StepOk demoStep ∧
    NoWorseStep demoStep { demoStep with nextDist := 5, routeLength := some 120, routeAzimuth := some 350, routeDirections := some 0 } := by
  refine ⟨⟨by norm_num [demoStep], by norm_num [demoStep], ?_, ?_, ?_, ?_, ?_, ?_⟩, rfl, by norm_num [demoStep], le_rfl, rfl, rfl, rfl,
    ⟨100, 150, 120, rfl, rfl, rfl, by norm_num, by norm_num, by norm_num⟩, ⟨0, 90, 350, rfl, rfl, rfl, by norm_num [angleDiff]⟩,
    ⟨90, 0, rfl, rfl, by norm_num⟩⟩ <;>
    intro r hr <;> simp only [demoStep, Option.some.injEq] at hr <;> subst hr <;> norm_num [demoStep, angleDiff]

/-- The reward of a step in numbers: distances 10 and 20 and twice the last 10, 50 metres too long times 1.5, 90 degrees off
the azimuth, the same for the turn, 90 degrees of turns. -/
example : stepReward ⟨1, 1, 1, 1, 1⟩ demoStep = -(10 + 20 + 20) - 75 - (90 + 90) - 90 := by
  norm_num [stepReward, demoStep, distancePart, lengthPart, azimuthPart, turnPart, directionsPart, angleDiff]

/-- **C73, turns.**  Every degree a route turns costs the same. -/
theorem turns_cost (f : Factors) (s : Step) (r a b : ℝ) (hr : s.routeLength = some r) :
    stepReward f { s with routeDirections := some a } - stepReward f { s with routeDirections := some b } = f.direction * (b - a) := by
  have e : ∀ x, stepReward f { s with routeDirections := some x } =
      0 - distancePart f s - lengthPart f (s.trackLength.getD 0) r - azimuthPart f s - f.direction * x := by
    intro x
    unfold stepReward
    rw [if_neg (by simp [hr])]
    simp only [hr, Option.getD_some]
    rfl
  rw [e, e]
  ring

example : demoStep.routeLength = some 150 := rfl

/-- **C73, distances.**  The candidate of a first point counts three times, after a skip one tenth; that of the last point
counts three times as next candidate, all others once as next and once as current candidate. -/
theorem distance_cost (f : Factors) (d : ℝ) (s : Step) :
    firstReward f true d = -(3 * (f.distance * d)) ∧ firstReward f false d = -(f.distance * d / 10) ∧
    distancePart f s = f.distance * s.currentDist + (if s.last then 3 else 1) * (f.distance * s.nextDist) := by
  refine ⟨by simp [firstReward]; ring, by simp [firstReward]; ring, ?_⟩
  unfold distancePart
  cases s.last <;> simp <;> ring

/-- **C73, failing.**  The reward for giving up at a point and the length of the track before it add up to the length of the
track: giving up later costs less by exactly the length between. -/
theorem fail_cost (c d : Nat) (hcd : c ≤ d) (lengths : List (Option ℝ)) :
    failReward c lengths = (((lengths.drop c).take (d - c)).filterMap id).sum + failReward d lengths := by
  unfold failReward
  rw [foldl_add, foldl_add]
  have e : lengths.drop c = (lengths.drop c).take (d - c) ++ lengths.drop d := by
    conv_lhs => rw [← List.take_append_drop (d - c) (lengths.drop c)]
    rw [List.drop_drop]
    congr 2
    omega
  conv_lhs => rw [e, List.filterMap_append, List.sum_append]
  ring

example : failReward 1 [some 5, some 7, none, some 1] = 8 := by
  norm_num [failReward, List.filterMap_cons]

/-- **C73 fails for routes shorter than the track.**  The cost of a length falls again towards zero although the route gets ever
further away from the track: half the length costs more than a hundredth of it; and a route of no length at all costs as much
as the track is long. -/
theorem short_route_fails : lengthPart ⟨1, 1, 1, 1, 1⟩ 100 1 < lengthPart ⟨1, 1, 1, 1, 1⟩ 100 50 ∧
    lengthPart ⟨1, 1, 1, 1, 1⟩ 100 50 < lengthPart ⟨1, 1, 1, 1, 1⟩ 100 0 := by
  norm_num [lengthPart]

/-- ... for every track: the cost is greatest at half the length and symmetric around it. -/
theorem short_route_cost (f : Factors) {n r : ℝ} (hr : 0 < r) (hn : r < n) :
    lengthPart f n r = lengthPart f n (n - r) ∧ (0 ≤ f.length → lengthPart f n r ≤ lengthPart f n (n / 2)) := by
  have hn0 : 0 < n := hr.trans hn
  constructor
  · unfold lengthPart
    rw [if_pos ⟨hr, hn0⟩, if_pos ⟨sub_pos.2 hn, hn0⟩, abs_of_pos (sub_pos.2 hn), sub_sub_cancel, abs_of_pos hr]
    ring
  · intro hf
    unfold lengthPart
    rw [if_pos ⟨hr, hn0⟩, if_pos ⟨by positivity, hn0⟩, abs_of_pos (sub_pos.2 hn), abs_of_pos (by linarith)]
    apply mul_le_mul_of_nonneg_left _ hf
    rw [mul_div_assoc', mul_div_assoc', div_le_div_iff_of_pos_right hn0]
    nlinarith [sq_nonneg (n - 2 * r)]

example : lengthPart ⟨1, 1, 1, 1, 1⟩ 100 1 = lengthPart ⟨1, 1, 1, 1, 1⟩ 100 99 := by norm_num [lengthPart]

end MM.Weights
