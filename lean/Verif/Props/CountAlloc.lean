import Verif.Model.CountAlloc
import Mathlib.Data.Int.ModEq
import Mathlib.Tactic.Ring
import Mathlib.Algebra.BigOperators.Group.List.Basic

/-!
# C89: what counting allocators report
-/

set_option autoImplicit false
set_option linter.unusedSectionVars false

namespace MM.CountAlloc

/-- Bytes that are allocated and will be released through allocators with counter `c`. -/
def held (c : Nat) (live : List (Nat × Nat)) : Nat := ((live.filter (fun b => b.1 == c)).map (·.2)).sum

/-- What an operation makes the counter `c` deviate from the bytes held: requests that failed, bytes of chains beyond one element for each block,
blocks resized or exchanged. -/
def deviation (c : Nat) : Op → Int
  | .alloc c' n size ok => if c' = c ∧ ok = false then (n * size : Nat) else 0
  | .free _ _ _ => 0
  | .allocMany c' elem num size ok => if c' = c ∧ ok = false then (elem * size * num : Nat) else 0
  | .freeMany c' chain size => if c' = c then (chain.sum : Int) - (chain.length * size : Nat) else 0
  | .command c' old bytes => if c' = c then (old.getD 0 : Nat) - (bytes : Int) else 0
  | .swap c' d bytes => (if c' = c then (bytes : Int) else 0) - (if d = c then (bytes : Int) else 0)

theorem add_at (cnt : Nat → Nat) (c c' n : Nat) :
    ((add cnt c' n) c : Int) ≡ (cnt c : Int) + (if c' = c then (n : Int) else 0) [ZMOD 2 ^ 64] := by
  unfold add
  by_cases h : c' = c
  · subst h
    rw [Function.update_self, if_pos rfl]
    push_cast
    exact Int.mod_modEq _ _
  · rw [Function.update_of_ne (fun e => h e.symm), if_neg h, add_zero]

theorem sub_at (cnt : Nat → Nat) (c c' n : Nat) :
    ((sub cnt c' n) c : Int) ≡ (cnt c : Int) - (if c' = c then (n : Int) else 0) [ZMOD 2 ^ 64] := by
  unfold sub
  by_cases h : c' = c
  · subst h
    rw [Function.update_self, if_pos rfl]
    have hlt : n % 2 ^ 64 < 2 ^ 64 := Nat.mod_lt _ (by decide)
    rw [Int.natCast_mod, Nat.cast_add, Nat.cast_sub hlt.le]
    push_cast
    refine (Int.mod_modEq _ _).trans ?_
    have h1 : ((n : Int) % 2 ^ 64) ≡ n [ZMOD 2 ^ 64] := Int.mod_modEq _ _
    have h2 : (2 ^ 64 : Int) ≡ 0 [ZMOD 2 ^ 64] := by
      rw [Int.modEq_zero_iff_dvd]
    have := (Int.ModEq.refl (cnt c' : Int)).add (h2.sub h1)
    rw [zero_sub, ← sub_eq_add_neg] at this
    exact this
  · rw [Function.update_of_ne (fun e => h e.symm), if_neg h, sub_zero]

theorem held_cons (c : Nat) (b : Nat × Nat) (live : List (Nat × Nat)) :
    (held c (b :: live) : Int) = held c live + (if b.1 = c then (b.2 : Int) else 0) := by
  unfold held
  by_cases h : b.1 = c
  · rw [List.filter_cons_of_pos (by simpa using h), if_pos h]
    simp [add_comm]
  · rw [List.filter_cons_of_neg (by simpa using h), if_neg h]
    simp

theorem held_replicate (c : Nat) (b : Nat × Nat) (n : Nat) (live : List (Nat × Nat)) :
    (held c (List.replicate n b ++ live) : Int) = held c live + (if b.1 = c then (b.2 * n : Int) else 0) := by
  induction n with
  | zero => simp
  | succ n ih =>
    rw [List.replicate_succ, List.cons_append, held_cons, ih]
    split
    · push_cast; ring
    · ring

theorem held_release {c : Nat} {live l : List (Nat × Nat)} {b : Nat × Nat} (h : release live b = .ok l) :
    (held c l : Int) = held c live - (if b.1 = c then (b.2 : Int) else 0) := by
  unfold release at h
  split at h
  · rename_i hm
    cases h
    have hp := List.perm_cons_erase hm
    have : held c live = held c (b :: live.erase b) := by
      unfold held
      exact ((hp.filter _).map _).sum_eq
    rw [this, held_cons]
    ring
  · cases h

theorem held_releaseAll {c d : Nat} : ∀ (chain : List Nat) (live l : List (Nat × Nat)), releaseAll d chain live = .ok l →
    (held c l : Int) = held c live - (if d = c then (chain.sum : Int) else 0)
  | [], live, l, h => by cases h; simp
  | b :: chain, live, l, h => by
    unfold releaseAll at h
    cases hr : release live (d, b) with
    | ok m =>
      rw [hr] at h
      have h1 := held_releaseAll (c := c) chain m l h
      have h2 := held_release (c := c) hr
      rw [h1, h2]
      simp only [List.sum_cons]
      split
      · push_cast; ring
      · ring
    | throws => rw [hr] at h; cases h
    | ub => rw [hr] at h; cases h

theorem subAll_at (c d size : Nat) : ∀ (chain : List Nat) (cnt : Nat → Nat),
    ((subAll d size chain cnt) c : Int) ≡ (cnt c : Int) - (if d = c then ((chain.length * size : Nat) : Int) else 0) [ZMOD 2 ^ 64]
  | [], cnt => by simp [subAll]
  | _ :: chain, cnt => by
    unfold subAll
    refine (subAll_at c d size chain _).trans ?_
    refine ((sub_at cnt c d size).sub (Int.ModEq.refl _)).trans ?_
    by_cases h : d = c
    · simp only [if_pos h, List.length_cons]
      rw [show (cnt c : Int) - (size : Int) - ((chain.length * size : Nat) : Int) = (cnt c : Int) - (((chain.length + 1) * size : Nat) : Int) by
        push_cast; ring]
    · simp only [if_neg h, sub_zero]
      exact Int.ModEq.refl _

theorem step_exact {s s' : St} {o : Op} (h : step s o = .ok s') (c : Nat) :
    (s'.cnt c : Int) - held c s'.live ≡ (s.cnt c : Int) - held c s.live + deviation c o [ZMOD 2 ^ 64] := by
  cases o with
  | alloc c' n size ok =>
    cases h
    refine ((add_at s.cnt c c' (n * size)).sub (Int.ModEq.refl _)).trans ?_
    cases ok with
    | true =>
      simp only [if_true, held_cons, deviation, Bool.true_eq_false, and_false, if_false]
      rw [show (s.cnt c : Int) + (if c' = c then ((n * size : Nat) : Int) else 0) - (held c s.live + (if c' = c then ((n * size : Nat) : Int) else 0)) =
        (s.cnt c : Int) - held c s.live + 0 by ring]
    | false =>
      simp only [Bool.false_eq_true, if_false, deviation, and_true]
      rw [show (s.cnt c : Int) + (if c' = c then ((n * size : Nat) : Int) else 0) - held c s.live =
        (s.cnt c : Int) - held c s.live + (if c' = c then ((n * size : Nat) : Int) else 0) by ring]
  | free c' n size =>
    simp only [step] at h
    cases hr : release s.live (c', n * size) with
    | ok l =>
      rw [hr] at h
      cases h
      refine ((sub_at s.cnt c c' (n * size)).sub (Int.ModEq.refl _)).trans ?_
      simp only [held_release (c := c) hr, deviation]
      rw [show (s.cnt c : Int) - (if c' = c then ((n * size : Nat) : Int) else 0) - (held c s.live - (if c' = c then ((n * size : Nat) : Int) else 0)) =
        (s.cnt c : Int) - held c s.live + 0 by ring]
    | throws => rw [hr] at h; cases h
    | ub => rw [hr] at h; cases h
  | allocMany c' elem num size ok =>
    cases h
    refine ((add_at s.cnt c c' (elem * size * num)).sub (Int.ModEq.refl _)).trans ?_
    cases ok with
    | true =>
      simp only [if_true, held_replicate, deviation, Bool.true_eq_false, and_false, if_false]
      have : (if c' = c then (((elem * size : Nat) : Int) * (num : Int)) else 0) = (if c' = c then ((elem * size * num : Nat) : Int) else 0) := by
        split
        · push_cast; rfl
        · rfl
      rw [this, show (s.cnt c : Int) + (if c' = c then ((elem * size * num : Nat) : Int) else 0) -
          (held c s.live + (if c' = c then ((elem * size * num : Nat) : Int) else 0)) = (s.cnt c : Int) - held c s.live + 0 by ring]
    | false =>
      simp only [Bool.false_eq_true, if_false, deviation, and_true]
      rw [show (s.cnt c : Int) + (if c' = c then ((elem * size * num : Nat) : Int) else 0) - held c s.live =
        (s.cnt c : Int) - held c s.live + (if c' = c then ((elem * size * num : Nat) : Int) else 0) by ring]
  | freeMany c' chain size =>
    simp only [step] at h
    cases hr : releaseAll c' chain s.live with
    | ok l =>
      rw [hr] at h
      cases h
      refine ((subAll_at c c' size chain s.cnt).sub (Int.ModEq.refl _)).trans ?_
      simp only [held_releaseAll (c := c) chain s.live l hr, deviation]
      by_cases hc : c' = c
      · simp only [if_pos hc]
        rw [show (s.cnt c : Int) - ((chain.length * size : Nat) : Int) - (held c s.live - (chain.sum : Int)) =
          (s.cnt c : Int) - held c s.live + ((chain.sum : Int) - ((chain.length * size : Nat) : Int)) by ring]
      · simp only [if_neg hc, sub_zero, add_zero]
        exact Int.ModEq.refl _
    | throws => rw [hr] at h; cases h
    | ub => rw [hr] at h; cases h
  | command c' old bytes =>
    cases old with
    | none =>
      cases h
      simp only [held_cons, deviation, Option.getD_none, Nat.cast_zero, zero_sub]
      by_cases hc : c' = c
      · simp only [if_pos hc]
        rw [show (s.cnt c : Int) - (held c s.live + (bytes : Int)) = (s.cnt c : Int) - held c s.live + -(bytes : Int) by ring]
      · simp only [if_neg hc, add_zero]
        exact Int.ModEq.refl _
    | some old =>
      simp only [step] at h
      cases hr : release s.live (c', old) with
      | ok l =>
        rw [hr] at h
        cases h
        simp only [held_cons, held_release (c := c) hr, deviation, Option.getD_some]
        by_cases hc : c' = c
        · simp only [if_pos hc]
          rw [show (s.cnt c : Int) - (held c s.live - (old : Int) + (bytes : Int)) = (s.cnt c : Int) - held c s.live + ((old : Int) - (bytes : Int)) by ring]
        · simp only [if_neg hc, sub_zero, add_zero]
          exact Int.ModEq.refl _
      | throws => rw [hr] at h; cases h
      | ub => rw [hr] at h; cases h
  | swap c' d bytes =>
    simp only [step] at h
    cases hr : release s.live (c', bytes) with
    | ok l =>
      rw [hr] at h
      cases h
      simp only [held_cons, held_release (c := c) hr, deviation]
      rw [show (s.cnt c : Int) - (held c s.live - (if c' = c then (bytes : Int) else 0) + (if d = c then (bytes : Int) else 0)) =
        (s.cnt c : Int) - held c s.live + ((if c' = c then (bytes : Int) else 0) - (if d = c then (bytes : Int) else 0)) by ring]
    | throws => rw [hr] at h; cases h
    | ub => rw [hr] at h; cases h

theorem run_exact : ∀ (ops : List Op) (s s' : St), run s ops = .ok s' → ∀ c,
    (s'.cnt c : Int) - held c s'.live ≡ (s.cnt c : Int) - held c s.live + (ops.map (deviation c)).sum [ZMOD 2 ^ 64]
  | [], s, s', h, c => by cases h; simp
  | o :: ops, s, s', h, c => by
    unfold run at h
    cases hs : step s o with
    | ok m =>
      rw [hs] at h
      refine (run_exact ops m s' h c).trans ?_
      refine ((step_exact hs c).add (Int.ModEq.refl _)).trans ?_
      rw [List.map_cons, List.sum_cons, add_assoc]
    | throws => rw [hs] at h; cases h
    | ub => rw [hs] at h; cases h

/-- **C89.**  After any operations on any containers, a counter is, modulo 2 ^ 64, the number of bytes held through it plus what failed requests, chains,
resized blocks and exchanges have made it deviate. -/
theorem count_exact (ops : List Op) (s : St) (h : run start ops = .ok s) (c : Nat) :
    (s.cnt c : Int) ≡ held c s.live + (ops.map (deviation c)).sum [ZMOD 2 ^ 64] := by
  have := run_exact ops start s h c
  have h0 : (start.cnt c : Int) - held c start.live = 0 := by simp [start, held]
  rw [h0, zero_add] at this
  have := this.add (Int.ModEq.refl (held c s.live : Int))
  rw [sub_add_cancel, add_comm] at this
  exact this

/-- Operations of containers that are counted right: every request succeeds, chains are of single elements, nothing is resized or exchanged between
allocators with different counters. -/
def Plain : Op → Prop
  | .alloc _ _ _ ok => ok = true
  | .free _ _ _ => True
  | .allocMany _ _ _ _ ok => ok = true
  | .freeMany _ chain size => ∀ b ∈ chain, b = size
  | .command _ _ _ => False
  | .swap c d _ => c = d

theorem counter_lt (ops : List Op) : ∀ s s' : St, (∀ c, s.cnt c < 2 ^ 64) → run s ops = .ok s' → ∀ c, s'.cnt c < 2 ^ 64 := by
  have hadd : ∀ (cnt : Nat → Nat) (d n : Nat), (∀ c, cnt c < 2 ^ 64) → ∀ c, add cnt d n c < 2 ^ 64 := by
    intro cnt d n h c
    unfold add
    by_cases hc : c = d
    · rw [hc, Function.update_self]
      exact Nat.mod_lt _ (Nat.two_pow_pos 64)
    · rw [Function.update_of_ne hc]
      exact h c
  have hsub : ∀ (cnt : Nat → Nat) (d n : Nat), (∀ c, cnt c < 2 ^ 64) → ∀ c, sub cnt d n c < 2 ^ 64 := by
    intro cnt d n h c
    unfold sub
    by_cases hc : c = d
    · rw [hc, Function.update_self]
      exact Nat.mod_lt _ (Nat.two_pow_pos 64)
    · rw [Function.update_of_ne hc]
      exact h c
  have hall : ∀ (d size : Nat) (chain : List Nat) (cnt : Nat → Nat), (∀ c, cnt c < 2 ^ 64) → ∀ c, subAll d size chain cnt c < 2 ^ 64 := by
    intro d size chain
    induction chain with
    | nil => intro cnt h c; exact h c
    | cons b chain ih => intro cnt h c; exact ih _ (hsub cnt d size h) c
  induction ops with
  | nil => intro s s' h hr c; cases hr; exact h c
  | cons o ops ih =>
    intro s s' h hr c
    unfold run at hr
    cases hs : step s o with
    | ok m =>
      rw [hs] at hr
      refine ih m s' ?_ hr c
      cases o with
      | alloc c' n size ok => cases hs; exact hadd _ _ _ h
      | allocMany c' elem num size ok => cases hs; exact hadd _ _ _ h
      | free c' n size =>
        simp only [step] at hs
        cases hl : release s.live (c', n * size) <;> rw [hl] at hs <;> cases hs
        exact hsub _ _ _ h
      | freeMany c' chain size =>
        simp only [step] at hs
        cases hl : releaseAll c' chain s.live <;> rw [hl] at hs <;> cases hs
        exact hall _ _ _ _ h
      | command c' old bytes =>
        cases old with
        | none => cases hs; exact h
        | some old =>
          simp only [step] at hs
          cases hl : release s.live (c', old) <;> rw [hl] at hs <;> cases hs
          exact h
      | swap c' d bytes =>
        simp only [step] at hs
        cases hl : release s.live (c', bytes) <;> rw [hl] at hs <;> cases hs
        exact h
    | throws => rw [hs] at hr; cases hr
    | ub => rw [hs] at hr; cases hr

/-- **C89**, the number of bytes reported is the number of bytes held, for all sequences of plain operations.  Missing: failed requests, chains of arrays,
resized blocks, exchanges (`failure_fails`, `chain_fails`, `resize_fails`, `swap_fails`). -/
theorem count_partial (ops : List Op) (hp : ∀ o ∈ ops, Plain o) (s : St) (h : run start ops = .ok s) (c : Nat) (hb : held c s.live < 2 ^ 64) :
    s.cnt c = held c s.live := by
  have hz : (ops.map (deviation c)).sum = 0 := by
    apply List.sum_eq_zero
    intro x hx
    obtain ⟨o, ho, rfl⟩ := List.mem_map.1 hx
    have := hp o ho
    cases o with
    | alloc c' n size ok => simp only [Plain] at this; simp [deviation, this]
    | free c' n size => rfl
    | allocMany c' elem num size ok => simp only [Plain] at this; simp [deviation, this]
    | freeMany c' chain size =>
      simp only [Plain] at this
      simp only [deviation]
      split
      · rw [List.eq_replicate_of_mem this, List.sum_replicate, List.length_replicate, nsmul_eq_mul, Nat.cast_id, sub_self]
      · rfl
    | command c' old bytes => exact absurd this id
    | swap c' d bytes => simp only [Plain] at this; simp [deviation, this]
  have he := count_exact ops s h c
  rw [hz, add_zero] at he
  have hlt := counter_lt ops start s (fun _ => Nat.two_pow_pos 64) h c
  have := he
  unfold Int.ModEq at this
  rw [Int.emod_eq_of_lt (by omega) (by exact_mod_cast hlt), Int.emod_eq_of_lt (by omega) (by exact_mod_cast hb)] at this
  exact_mod_cast this

/-- **C89.**  When everything has been released by plain operations, every counter is back at zero. -/
theorem count_zero (ops : List Op) (hp : ∀ o ∈ ops, Plain o) (s : St) (h : run start ops = .ok s) (he : s.live = []) (c : Nat) : s.cnt c = 0 := by
  have h0 : held c s.live = 0 := by simp [he, held]
  rw [count_partial ops hp s h c (by rw [h0]; decide), h0]

/-! ### Threads -/

/-- A thread gets to a counter: addition (`true`) or subtraction, each indivisible. -/
def touch (cnt : Nat → Nat) (e : Bool × Nat × Nat) : Nat → Nat := if e.1 then add cnt e.2.1 e.2.2 else sub cnt e.2.1 e.2.2

theorem touch_comm (cnt : Nat → Nat) (a b : Bool × Nat × Nat) : touch (touch cnt a) b = touch (touch cnt b) a := by
  obtain ⟨x, c, n⟩ := a
  obtain ⟨y, d, m⟩ := b
  by_cases h : c = d
  · subst h
    cases x <;> cases y <;> simp only [touch, add, sub, Bool.false_eq_true, if_true, if_false, Function.update_self, Function.update_idem] <;>
      congr 1 <;> omega
  · have h' : d ≠ c := fun e => h e.symm
    cases x <;> cases y <;> simp only [touch, add, sub, Bool.false_eq_true, if_true, if_false, Function.update_of_ne h, Function.update_of_ne h'] <;>
      rw [Function.update_comm h]

/-- **C89**, thread-safe counters: the order in which the threads get to the counters does not matter. -/
theorem order_irrelevant {es es' : List (Bool × Nat × Nat)} (h : es.Perm es') (cnt : Nat → Nat) : es.foldl touch cnt = es'.foldl touch cnt :=
  h.foldl_eq' (fun a _ b _ v => touch_comm v a b) cnt

/-! ### Cases -/

example : ([(true, 0, 5), (false, 0, 3), (true, 0, 1)].foldl touch (fun _ => 0)) 0 = 3 := by decide

example : ∃ s, run start [.alloc 0 3 8 true, .alloc 1 2 16 true, .allocMany 0 1 4 8 true, .free 0 3 8, .freeMany 0 [8, 8] 8] = .ok s ∧
    s.cnt 0 = 16 ∧ s.cnt 1 = 32 ∧ s.live = [(0, 8), (0, 8), (1, 32)] := ⟨_, rfl, by decide, by decide, rfl⟩

/-- **C89 fails** after a failed request: it stays counted, although nothing is held. -/
theorem failure_fails (n size : Nat) (h : 0 < n * size) (h' : n * size < 2 ^ 64) :
    ∃ s, run start [.alloc 0 n size false] = .ok s ∧ held 0 s.live = 0 ∧ s.cnt 0 = n * size ∧ s.cnt 0 ≠ 0 := by
  refine ⟨_, rfl, rfl, ?_, ?_⟩
  · simp only [add, start, Function.update_self, Nat.zero_add, Nat.mod_eq_of_lt h']
  · simp only [add, start, Function.update_self, Nat.zero_add, Nat.mod_eq_of_lt h']
    omega

/-- **C89 fails** for chains of arrays: everything was released, and yet most of it stays counted. -/
theorem chain_fails : ∃ s, run start [.allocMany 0 10 2 8 true, .freeMany 0 [80, 80] 8] = .ok s ∧ s.live = [] ∧ s.cnt 0 = 144 :=
  ⟨_, rfl, rfl, by decide⟩

/-- **C89 fails** for resized blocks, as the comment in the code says. -/
theorem resize_fails : ∃ s, run start [.alloc 0 1 8 true, .command 0 (some 8) 16, .free 0 2 8] = .ok s ∧ s.live = [] ∧ s.cnt 0 = 2 ^ 64 - 8 :=
  ⟨_, rfl, rfl, by decide⟩

/-- **C89 fails** when containers with different counters are exchanged: afterwards one counter is too high, the other has wrapped around. -/
theorem swap_fails : ∃ s, run start [.alloc 0 1 8 true, .swap 0 1 8, .free 1 1 8] = .ok s ∧ s.live = [] ∧ s.cnt 0 = 8 ∧ s.cnt 1 = 2 ^ 64 - 8 :=
  ⟨_, rfl, rfl, by decide, by decide⟩

end MM.CountAlloc
