import Verif.Model.EdgeSwitch
import Mathlib.Tactic.Linarith
import Mathlib.Tactic.Ring
import Mathlib.Tactic.FieldSimp
import Mathlib.Tactic.Positivity

/-!
# C86: choosing between edge and index by measured times is well defined
-/

set_option autoImplicit false
set_option linter.unusedSectionVars false

namespace MM.EdgeSwitch

theorem toNat_floor_le {q : Rat} (h : 0 ≤ q) : ((q.floor.toNat : Nat) : Rat) ≤ q := by
  have h0 : 0 ≤ q.floor := Int.floor_nonneg.2 h
  have h1 : ((q.floor.toNat : Nat) : Rat) = (q.floor : Rat) := by
    have : ((q.floor.toNat : Nat) : Int) = q.floor := Int.toNat_of_nonneg h0
    exact_mod_cast this
  rw [h1]
  exact Int.floor_le q

/-- With positive times both cases come to the same formula. -/
theorem adapt_pos (s : State) {e i : Rat} (he : s.edge = some e) (hi : s.index = some i) (h1 : 0 < e) (h2 : 0 < i) :
    adapt s = (toSize (.fin (s.switch * i / e))).map (max 2) := by
  unfold adapt
  rw [he, hi]
  simp only
  by_cases h : e < i
  · rw [if_pos h, quot, if_neg h1.ne', times]
    congr 3
    ring
  · rw [if_neg h, quot, if_neg h2.ne', over]
    congr 3
    field_simp

theorem adapt_fit (s : State) {e i : Rat} (he : s.edge = some e) (hi : s.index = some i) (h1 : 0 < e) (h2 : 0 < i)
    (h : s.switch * i / e < 2 ^ 64) :
    ∃ n : Nat, adapt s = .ok n ∧ 2 ≤ n ∧ (n : Rat) ≤ max 2 (s.switch * i / e) := by
  have h0 : 0 ≤ s.switch * i / e := by positivity
  refine ⟨max 2 (s.switch * i / e).floor.toNat, ?_, le_max_left _ _, ?_⟩
  · rw [adapt_pos s he hi h1 h2, toSize, if_pos h, Outcome.map_ok]
  · rw [Nat.cast_max]
    exact max_le_max (by norm_num) (toNat_floor_le h0)

/-- The state between two edges; `N` bounds the number of points, `lo` and `hi` the times. -/
structure Inv (N : Nat) (lo hi : Rat) (s : State) : Prop where
  two : 2 ≤ s.switch
  le : (s.switch : Rat) ≤ max 16 (N * N * hi / (2 * lo))
  edge : ∀ e, s.edge = some e → 2 * lo / N ≤ e ∧ (lo * s.switch / N ≤ e ∨ s.switch < N)
  index : ∀ i, s.index = some i → lo ≤ i ∧ i ≤ hi

theorem step_inv {N : Nat} {lo hi : Rat} (hlo : 0 < lo) (hN : 2 ≤ N) (hfit : N * N * hi / (2 * lo) < 2 ^ 64) {s : State}
    (h : Inv N lo hi s) {size : Nat} {t : Rat} (hs : 2 ≤ size) (hsN : size ≤ N) (ht : lo ≤ t) (ht' : t ≤ hi) :
    ∃ b s', step s size t = .ok (b, s') ∧ Inv N lo hi s' ∧ (b = true ↔ s'.switch < size) := by
  have hN0 : (2 : Rat) ≤ N := by exact_mod_cast hN
  have hNpos : (0 : Rat) < N := by linarith
  have hhi : lo ≤ hi := ht.trans ht'
  have hhi0 : 0 < hi := lt_of_lt_of_le hlo hhi
  have hs0 : (2 : Rat) ≤ size := by exact_mod_cast hs
  have hsN0 : (size : Rat) ≤ N := by exact_mod_cast hsN
  have hbig : (2 : Rat) ≤ N * N * hi / (2 * lo) := by
    rw [le_div_iff₀ (by linarith)]
    have : 2 * (2 * lo) ≤ 2 * (2 * hi) := by linarith
    have h4 : (4 : Rat) ≤ N * N := by nlinarith
    nlinarith
  -- the size after adapting
  obtain ⟨n, hn, hn2, hnle, hnN⟩ : ∃ n : Nat, adapt s = .ok n ∧ 2 ≤ n ∧ (n : Rat) ≤ max 16 (N * N * hi / (2 * lo)) ∧
      True := by
    cases he : s.edge with
    | none => exact ⟨s.switch, by unfold adapt; rw [he], h.two, h.le, trivial⟩
    | some e =>
      cases hi' : s.index with
      | none => exact ⟨s.switch, by unfold adapt; rw [he, hi'], h.two, h.le, trivial⟩
      | some i =>
        obtain ⟨e1, e2⟩ := h.edge e he
        obtain ⟨i1, i2⟩ := h.index i hi'
        have hepos : 0 < e := lt_of_lt_of_le (by positivity) e1
        have hipos : 0 < i := lt_of_lt_of_le hlo i1
        have hsw : (0 : Rat) < s.switch := by exact_mod_cast (by have := h.two; omega : 0 < s.switch)
        have hle : s.switch * i / e ≤ N * N * hi / (2 * lo) := by
          rw [div_le_div_iff₀ hepos (by linarith)]
          rcases e2 with e2 | e2
          · rw [div_le_iff₀ hNpos] at e2
            have h1 : s.switch * i * (2 * lo) ≤ s.switch * hi * (2 * lo) := by
              have := mul_le_mul_of_nonneg_left i2 hsw.le
              exact mul_le_mul_of_nonneg_right this (by linarith)
            have h2 : s.switch * hi * (2 * lo) = 2 * hi * (lo * s.switch) := by ring
            have h3 : 2 * hi * (lo * s.switch) ≤ 2 * hi * (e * N) := mul_le_mul_of_nonneg_left e2 (by linarith)
            have h4 : 2 * hi * (e * N) ≤ N * hi * (e * N) := by
              have h5 : 2 * hi ≤ N * hi := mul_le_mul_of_nonneg_right hN0 hhi0.le
              exact mul_le_mul_of_nonneg_right h5 (by positivity)
            have h6 : (N : Rat) * hi * (e * N) = N * N * hi * e := by ring
            linarith
          · have hsN' : (s.switch : Rat) ≤ N := by exact_mod_cast e2.le
            rw [div_le_iff₀ hNpos] at e1
            have h1 : s.switch * i ≤ N * hi := mul_le_mul hsN' i2 hipos.le hNpos.le
            have h2 : s.switch * i * (2 * lo) ≤ N * hi * (2 * lo) := mul_le_mul_of_nonneg_right h1 (by linarith)
            have h3 : N * hi * (2 * lo) ≤ N * hi * (e * N) := mul_le_mul_of_nonneg_left e1 (by positivity)
            have h6 : (N : Rat) * hi * (e * N) = N * N * hi * e := by ring
            linarith
        obtain ⟨n, n1, n2, n3⟩ := adapt_fit s he hi' hepos hipos (lt_of_le_of_lt hle hfit)
        refine ⟨n, n1, n2, n3.trans (max_le ((by norm_num : (2 : Rat) ≤ 16).trans (le_max_left _ _)) ?_), trivial⟩
        exact hle.trans (le_max_right _ _)
  have hn0 : (2 : Rat) ≤ n := by exact_mod_cast hn2
  unfold step
  rw [hn, Outcome.bind_ok]
  by_cases hsz : size ≤ n
  · rw [if_pos hsz]
    refine ⟨_, _, rfl, ⟨hn2, hnle, ?_, h.index⟩, by simp only; constructor <;> intro h0 <;> [cases h0; omega]⟩
    intro e he
    simp only [Option.some.injEq] at he
    subst he
    have hsize0 : (0 : Rat) < size := by linarith
    have h1 : lo * n / N ≤ t * (n / size) := by
      rw [← mul_div_assoc, div_le_div_iff₀ hNpos hsize0]
      have h2 : lo * n ≤ t * n := mul_le_mul_of_nonneg_right ht (by linarith)
      exact mul_le_mul h2 hsN0 hsize0.le (by nlinarith)
    refine ⟨?_, .inl h1⟩
    refine le_trans ?_ h1
    exact div_le_div_of_nonneg_right (by nlinarith) hNpos.le
  · rw [if_neg hsz]
    refine ⟨_, _, rfl, ⟨hn2, hnle, ?_, ?_⟩, ⟨fun _ => not_le.1 hsz, fun _ => rfl⟩⟩
    · intro e he
      exact ⟨(h.edge e he).1, .inr (lt_of_lt_of_le (not_le.1 hsz) hsN)⟩
    · intro i hi'
      simp only [Option.some.injEq] at hi'
      subst hi'
      exact ⟨ht, ht'⟩

/-- **C86.**  If all measured times are positive, between `lo` and `hi`, and edges have between 2 and `N` points, then nothing
undefined happens, for any number of edges, and the size from which on the index is used stays between 2 and
`N * N * hi / (2 * lo)` (or 16, where it begins).  Missing: times of zero, see `zero_time_fails`, and very unequal times, see `unequal_times_fails`. -/
theorem switch_bounded_partial {N : Nat} {lo hi : Rat} (hlo : 0 < lo) (hN : 2 ≤ N) (hfit : N * N * hi / (2 * lo) < 2 ^ 64)
    (xs : List (Nat × Rat)) (hx : ∀ x ∈ xs, 2 ≤ x.1 ∧ x.1 ≤ N ∧ lo ≤ x.2 ∧ x.2 ≤ hi) :
    ∃ bs s, run State.start xs = .ok (bs, s) ∧ bs.length = xs.length ∧ 2 ≤ s.switch ∧
      (s.switch : Rat) ≤ max 16 (N * N * hi / (2 * lo)) := by
  have key : ∀ (xs : List (Nat × Rat)) (s : State), Inv N lo hi s →
      (∀ x ∈ xs, 2 ≤ x.1 ∧ x.1 ≤ N ∧ lo ≤ x.2 ∧ x.2 ≤ hi) →
      ∃ bs s', run s xs = .ok (bs, s') ∧ bs.length = xs.length ∧ Inv N lo hi s' := by
    intro xs
    induction xs with
    | nil => intro s h _; exact ⟨[], s, rfl, rfl, h⟩
    | cons x xs ih =>
      intro s h hx
      obtain ⟨a1, a2, a3, a4⟩ := hx x List.mem_cons_self
      obtain ⟨b, s1, e1, i1, -⟩ := step_inv hlo hN hfit h a1 a2 a3 a4
      obtain ⟨bs, s2, e2, l2, i2⟩ := ih s1 i1 (fun y hy => hx y (List.mem_cons_of_mem _ hy))
      exact ⟨b :: bs, s2, by simp [run, e1, e2], by simp [l2], i2⟩
  obtain ⟨bs, s, h1, h2, h3⟩ := key xs State.start
    ⟨by decide, le_max_left _ _, (fun e h => by cases h), (fun i h => by cases h)⟩ hx
  exact ⟨bs, s, h1, h2, h3.two, h3.le⟩

/-- Times between a microsecond and a hundred, edges of at most a thousand points. -/
example : (0 : Rat) < 1 / 1000000 ∧ ((1000 : Nat) : Rat) * (1000 : Nat) * (1 / 10000) / (2 * (1 / 1000000)) < 2 ^ 64 ∧
    run State.start [(20, 1 / 10000), (4, 1 / 100000), (30, 1 / 1000000), (3, 1 / 1000000)] =
      .ok ([true, false, false, false], ⟨3000, some (1 / 1000), some (1 / 10000)⟩) := by
  refine ⟨by norm_num, by norm_num, by decide +kernel⟩

/-- **C86.**  As long as no edge has more than 16 points, the index is never asked and the size stays 16, whatever times are
measured. -/
theorem small_edges (xs : List (Nat × Rat)) (hx : ∀ x ∈ xs, x.1 ≤ 16) :
    ∃ e, run State.start xs = .ok (List.replicate xs.length false, ⟨16, e, none⟩) := by
  have key : ∀ (xs : List (Nat × Rat)) (e : Option Rat), (∀ x ∈ xs, x.1 ≤ 16) →
      ∃ e', run ⟨16, e, none⟩ xs = .ok (List.replicate xs.length false, ⟨16, e', none⟩) := by
    intro xs
    induction xs with
    | nil => intro e _; exact ⟨e, rfl⟩
    | cons x xs ih =>
      intro e h
      obtain ⟨e', he'⟩ := ih (some (x.2 * ((16 : Nat) / x.1))) (fun y hy => h y (List.mem_cons_of_mem _ hy))
      refine ⟨e', ?_⟩
      have h16 := h x List.mem_cons_self
      have ha : adapt ⟨16, e, none⟩ = .ok 16 := by unfold adapt; cases e <;> rfl
      rw [run, step, ha, Outcome.bind_ok, if_pos h16, Outcome.bind_ok, he', Outcome.bind_ok]
      rfl
  exact key xs none hx

/-- **C86.**  The size goes the right way: it does not shrink while edges take less time than the index, does not grow while
they take more, and stays if they take the same. -/
theorem switch_direction (s : State) {e i : Rat} (he : s.edge = some e) (hi : s.index = some i) (h1 : 0 < e) (h2 : 0 < i)
    (h3 : 2 ≤ s.switch) {n : Nat} (h : adapt s = .ok n) :
    2 ≤ n ∧ (e ≤ i → s.switch ≤ n) ∧ (i ≤ e → n ≤ s.switch) := by
  rw [adapt_pos s he hi h1 h2, toSize] at h
  by_cases hf : (s.switch * i / e : Rat) < 2 ^ 64
  · rw [if_pos hf, Outcome.map_ok] at h
    injection h with h
    subst h
    refine ⟨le_max_left _ _, fun hle => le_max_of_le_right ?_, fun hle => max_le h3 ?_⟩
    · have h4 : (s.switch : Rat) ≤ s.switch * i / e := by
        rw [le_div_iff₀ h1]
        exact mul_le_mul_of_nonneg_left hle (by positivity)
      have h5 : (s.switch : Int) ≤ (s.switch * i / e : Rat).floor := Int.le_floor.2 (by exact_mod_cast h4)
      omega
    · have h4 : (s.switch * i / e : Rat) ≤ s.switch := by
        rw [div_le_iff₀ h1]
        exact mul_le_mul_of_nonneg_left hle (by positivity)
      have h5 : (((s.switch * i / e : Rat).floor.toNat : Nat) : Rat) ≤ s.switch :=
        (toNat_floor_le (by positivity)).trans h4
      exact_mod_cast h5
  · rw [if_neg hf] at h
    cases h

example : adapt ⟨16, some 2, some 3⟩ = .ok 24 ∧ adapt ⟨16, some 3, some 2⟩ = .ok 10 ∧ adapt ⟨16, some 300, some 2⟩ = .ok 2 := by
  decide +kernel

/-- **C86 fails** if the clock is too coarse to see the time taken by an edge: a number that is infinite, or none, is converted to
a whole number, which is undefined. -/
theorem zero_time_fails :
    run State.start [(20, 1 / 1000000), (4, 0), (4, 0)] = .ub ∧ run State.start [(20, 0), (4, 0), (4, 0)] = .ub ∧
    ∀ xs, run State.start ((20, 0) :: (4, 0) :: (4, 0) :: xs) = .ub := by
  refine ⟨by decide +kernel, by decide +kernel, fun xs => ?_⟩
  have h1 : step State.start 20 0 = .ok (true, ⟨16, none, some 0⟩) := by decide +kernel
  have h2 : step ⟨16, none, some 0⟩ 4 0 = .ok (false, ⟨16, some 0, some 0⟩) := by decide +kernel
  have h3 : step ⟨16, some 0, some 0⟩ 4 0 = .ub := by decide +kernel
  simp only [run, h1, h2, h3, Outcome.bind_ok, Outcome.bind_ub]

/-- **C86 fails** also for positive times, if they are so unequal that the size does not fit (in theory only). -/
theorem unequal_times_fails : run State.start [(20, 2 ^ 64), (16, 1), (4, 1)] = .ub ∧
    (run State.start [(20, 2 ^ 59), (16, 1), (4, 1)]).map Prod.fst = .ok [true, false, false] := by decide +kernel

/-- **C86 fails**: which edges are projected with the index depends on the times, so that with C74 (`times_fails`) the
same input can give different candidates. -/
theorem times_decide_fails :
    run State.start [(20, 8), (4, 1), (20, 1)] = .ok ([true, false, false], ⟨32, some (32 / 20), some 8⟩) ∧
    run State.start [(20, 1), (4, 8), (20, 1)] = .ok ([true, false, true], ⟨2, some 32, some 1⟩) := by decide +kernel

end MM.EdgeSwitch
