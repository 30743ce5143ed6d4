import Verif.Model.QLearn
import Verif.Props.Learn
import Verif.Model.Env
import Mathlib.Tactic.Linarith
import Mathlib.Tactic.NormNum
import Mathlib.Tactic.Ring

/-!
# C92: training and policy of Q-learning
-/

set_option autoImplicit false
set_option linter.unusedSectionVars false

namespace MM.QLearn

open MM.Learn (qUpdate maxNext padRow Within)
open MM.Router (Entry record policyOf)

variable {R : Type} [CommRing R] [LinearOrder R] [IsStrictOrderedRing R]

/-! ### The best entry of a row -/

theorem bestFrom_spec (row : List (Option R)) : ∀ (i : Nat) (acc : Option (Nat × R)),
    (acc = none ∧ (∀ x, some x ∉ row) ∧ bestFrom row i acc = none) ∨
    ∃ j y, bestFrom row i acc = some (j, y) ∧ (acc = some (j, y) ∨ ∃ n, j = i + n ∧ row[n]? = some (some y)) ∧
      (∀ x, some x ∈ row → x ≤ y) ∧ ∀ j' y', acc = some (j', y') → y' ≤ y := by
  induction row with
  | nil =>
    intro i acc
    cases acc with
    | none => exact .inl ⟨rfl, by simp, rfl⟩
    | some a =>
      refine .inr ⟨a.1, a.2, rfl, .inl rfl, by simp, ?_⟩
      intro j' y' h
      simp only [Option.some.injEq] at h
      rw [h]
  | cons e row ih =>
    intro i acc
    cases e with
    | none =>
      have h0 : bestFrom (none :: row) i acc = bestFrom row (i + 1) acc := by cases acc <;> rfl
      rcases ih (i + 1) acc with ⟨h1, h2, h3⟩ | ⟨j, y, h1, h2, h3, h4⟩
      · exact .inl ⟨h1, by intro x hx; simp at hx; exact h2 x hx, h0.trans h3⟩
      · refine .inr ⟨j, y, h0.trans h1, ?_, ?_, h4⟩
        · rcases h2 with h2 | ⟨n, h2, h5⟩
          · exact .inl h2
          · exact .inr ⟨n + 1, by omega, by simpa using h5⟩
        · intro x hx; simp at hx; exact h3 x hx
    | some v =>
      right
      cases acc with
      | none =>
        have h0 : bestFrom (some v :: row) i none = bestFrom row (i + 1) (some (i, v)) := rfl
        rcases ih (i + 1) (some (i, v)) with ⟨h1, _, _⟩ | ⟨j, y, h1, h2, h3, h4⟩
        · exact absurd h1 (by simp)
        · refine ⟨j, y, h0.trans h1, ?_, ?_, by simp⟩
          · right
            rcases h2 with h2 | ⟨n, h2, h5⟩
            · simp only [Option.some.injEq, Prod.mk.injEq] at h2
              exact ⟨0, by omega, by simp [h2.2]⟩
            · exact ⟨n + 1, by omega, by simpa using h5⟩
          · intro x hx
            rcases List.mem_cons.1 hx with hx | hx
            · simp only [Option.some.injEq] at hx; subst hx; exact h4 i x rfl
            · exact h3 x hx
      | some a =>
        obtain ⟨j0, y0⟩ := a
        have h0 : bestFrom (some v :: row) i (some (j0, y0)) = bestFrom row (i + 1) (if y0 < v then some (i, v) else some (j0, y0)) := rfl
        by_cases hv : y0 < v
        · rw [if_pos hv] at h0
          rcases ih (i + 1) (some (i, v)) with ⟨h1, _, _⟩ | ⟨j, y, h1, h2, h3, h4⟩
          · exact absurd h1 (by simp)
          · refine ⟨j, y, h0.trans h1, ?_, ?_, ?_⟩
            · right
              rcases h2 with h2 | ⟨n, h2, h5⟩
              · simp only [Option.some.injEq, Prod.mk.injEq] at h2
                exact ⟨0, by omega, by simp [h2.2]⟩
              · exact ⟨n + 1, by omega, by simpa using h5⟩
            · intro x hx
              rcases List.mem_cons.1 hx with hx | hx
              · simp only [Option.some.injEq] at hx; subst hx; exact h4 i x rfl
              · exact h3 x hx
            · intro j' y' h
              simp only [Option.some.injEq, Prod.mk.injEq] at h
              rw [← h.2]
              exact (le_of_lt hv).trans (h4 i v rfl)
        · rw [if_neg hv] at h0
          rcases ih (i + 1) (some (j0, y0)) with ⟨h1, _, _⟩ | ⟨j, y, h1, h2, h3, h4⟩
          · exact absurd h1 (by simp)
          · refine ⟨j, y, h0.trans h1, ?_, ?_, h4⟩
            · rcases h2 with h2 | ⟨n, h2, h5⟩
              · exact .inl h2
              · exact .inr ⟨n + 1, by omega, by simpa using h5⟩
            · intro x hx
              rcases List.mem_cons.1 hx with hx | hx
              · simp only [Option.some.injEq] at hx; subst hx; exact (not_lt.1 hv).trans (h4 j0 y0 rfl)
              · exact h3 x hx

theorem best_some {row : List (Option R)} {a : Nat} (h : best row = some a) :
    ∃ y, row[a]? = some (some y) ∧ ∀ x, some x ∈ row → x ≤ y := by
  unfold best at h
  rcases bestFrom_spec row 0 none with ⟨_, _, h3⟩ | ⟨j, y, h1, h2, h3, _⟩
  · simp [h3] at h
  · rw [h1] at h
    simp only [Option.map_some, Option.some.injEq] at h
    subst h
    rcases h2 with h2 | ⟨n, h2, h5⟩
    · simp at h2
    · exact ⟨y, by rw [show j = n by omega]; exact h5, h3⟩

theorem best_none {row : List (Option R)} (h : best row = none) : ∀ x, some x ∉ row := by
  unfold best at h
  rcases bestFrom_spec row 0 none with ⟨_, h2, _⟩ | ⟨j, y, h1, _⟩
  · exact h2
  · simp [h1] at h

theorem mem_le_foldl (xs : List R) : ∀ x, ∀ y ∈ xs, y ≤ xs.foldl max x := by
  induction xs with
  | nil => simp
  | cons z zs ih =>
    intro x y hy
    rcases List.mem_cons.1 hy with rfl | hy
    · exact (le_max_right x y).trans (Learn.le_foldl_max zs _)
    · exact ih _ y hy

theorem maxNext_eq {row : List (Option R)} {y : R} (h1 : some y ∈ row) (h2 : ∀ x, some x ∈ row → x ≤ y) : maxNext row = y := by
  have hm : ∀ x, x ∈ row.filterMap id ↔ some x ∈ row := by intro x; simp
  unfold maxNext
  cases hf : row.filterMap id with
  | nil => have := (hm y).2 h1; rw [hf] at this; simp at this
  | cons z zs =>
    rw [hf] at hm
    simp only
    apply le_antisymm
    · exact Learn.foldl_max_le zs z (h2 z ((hm z).1 (by simp))) (fun x hx => h2 x ((hm x).1 (by simp [hx])))
    · rcases List.mem_cons.1 ((hm y).2 h1) with rfl | hy
      · exact Learn.le_foldl_max zs _
      · exact mem_le_foldl zs z y hy

/-! ### The table holds offered actions only -/

/-- Estimates belong to offered actions. -/
def Offered (p : Proc R) (q : Table R) : Prop := ∀ s a x, (q s)[a]? = some (some x) → a ∈ p.actions s

theorem offered_update {p : Proc R} {q : Table R} (h : Offered p q) (lr γ : R) (s a s' : Nat) (r : R) (ha : a ∈ p.actions s) :
    Offered p (qUpdate lr γ q s a s' r) := by
  intro t b x hx
  by_cases hc : t = s ∧ b = a
  · rw [hc.1, hc.2]; exact ha
  · have := Learn.q_update_frame_partial lr γ q s a s' r t b hc
    rw [hx] at this
    simp only [Option.join_some] at this
    cases hb : (q t)[b]? with
    | none => simp [hb] at this
    | some o => simp [hb] at this; exact h t b x (by rw [hb, ← this])

theorem offered_init {p : Proc R} {q : Table R} (h : Offered p q) (s n : Nat) :
    Offered p (if q s = [] then fun t => if t = s then List.replicate n none else q t else q) := by
  split
  · intro t b x hx
    by_cases ht : t = s
    · simp only [ht, if_true, List.getElem?_replicate] at hx
      split at hx <;> simp at hx
    · simp only [if_neg ht] at hx
      exact h t b x hx
  · exact h

theorem random_ok {p : Proc R} {c : Cfg R} {q : Table R} {s : Nat} {d : Draw} {r : Nat × Table R} (hq : Offered p q)
    (h : randomAction p c q s d = .ok r) : r.1 ∈ p.actions s ∧ Offered p r.2 := by
  unfold randomAction at h
  split at h
  · simp at h
  · next a ha =>
    simp only [Outcome.ok.injEq] at h
    subst h
    exact ⟨List.mem_of_getElem? ha, offered_init hq s _⟩

theorem choose_ok {p : Proc R} {c : Cfg R} {q : Table R} {s : Nat} {d : Draw} {r : Nat × Table R} (hq : Offered p q)
    (h : choose p c q s d = .ok r) : r.1 ∈ p.actions s ∧ Offered p r.2 := by
  unfold choose at h
  by_cases hg : d.greedy = true
  · rw [if_pos hg] at h
    cases hb : best (q s) with
    | none => rw [hb] at h; exact random_ok hq h
    | some a =>
      rw [hb] at h
      simp only [Outcome.ok.injEq] at h
      subst h
      obtain ⟨y, hy, _⟩ := best_some hb
      exact ⟨hq s a y hy, hq⟩
  · rw [if_neg hg] at h; exact random_ok hq h

/-! ### Walks -/

/-- The steps of a walk: each in the state reached, with an offered action, and none after the end. -/
def Walk (p : Proc R) : Nat → List (Nat × Nat) → Prop
  | _, [] => True
  | s, (t, a) :: w => t = s ∧ a ∈ p.actions s ∧ (p.done s a = true → w = []) ∧ Walk p (p.next s a) w

/-- The walk comes to its end. -/
def Ends (p : Proc R) (w : List (Nat × Nat)) : Prop := ∃ x, w.getLast? = some x ∧ p.done x.1 x.2 = true

/-- The walk has come to its end, or has the greatest number of steps. -/
def Complete (p : Proc R) (n : Nat) (w : List (Nat × Nat)) : Prop := w.length = n ∨ Ends p w

/-- The policy that a learner writes for a walk. -/
def written (p : Proc R) (w : List (Nat × Nat)) : List Entry := policyOf (w.map (fun x => p.move x.1 x.2))

/-- Sum of the rewards of a walk. -/
def total (p : Proc R) (w : List (Nat × Nat)) : R := (w.map (fun x => p.reward x.1 x.2)).sum

theorem complete_cons {p : Proc R} {k : Nat} {w : List (Nat × Nat)} (h : Complete p k w) (x : Nat × Nat) : Complete p (k + 1) (x :: w) := by
  rcases h with h5 | ⟨y, h5, h6⟩
  · exact .inl (by simp [h5])
  · exact .inr ⟨y, by rw [List.getLast?_cons, h5]; rfl, h6⟩

theorem train_walk {p : Proc R} {c : Cfg R} {rnd : Nat → Draw} (k : Nat) : ∀ {s : Nat} {q : Table R} {score : R} {r : Table R × R},
    Offered p q → train p c rnd k s q score = .ok r → Offered p r.1 ∧
      ∃ w, Walk p s w ∧ w.length ≤ k ∧ Complete p k w ∧ r.2 = score + total p w := by
  induction k with
  | zero =>
    intro s q score r hq h
    simp only [train, Outcome.ok.injEq] at h
    subst h
    exact ⟨hq, [], trivial, by simp, .inl rfl, by simp [total]⟩
  | succ k ih =>
    intro s q score r hq h
    simp only [train] at h
    cases hc : choose p c q s (rnd k) with
    | throws => simp [hc] at h
    | ub => simp [hc] at h
    | ok x =>
      obtain ⟨h1, h2⟩ := choose_ok hq hc
      have h3 := offered_update h2 c.lr c.discount s x.1 (p.next s x.1) (p.reward s x.1) h1
      rw [hc, Outcome.bind_ok] at h
      by_cases hd : p.done s x.1 = true
      · rw [if_pos hd, Outcome.ok.injEq] at h
        subst h
        exact ⟨h3, [(s, x.1)], ⟨rfl, h1, fun _ => rfl, trivial⟩, by simp, .inr ⟨(s, x.1), rfl, hd⟩, by simp [total]⟩
      · rw [if_neg hd] at h
        obtain ⟨h4, w, h5, h6, h7, h8⟩ := ih h3 h
        exact ⟨h4, (s, x.1) :: w, ⟨rfl, h1, fun h => absurd h hd, h5⟩, by simpa using h6, complete_cons h7 _,
          by rw [h8]; simp [total, add_assoc]⟩

theorem extract_walk {p : Proc R} {q : Table R} (hq : Offered p q) (k : Nat) : ∀ (s : Nat) (pol : List Entry) (score : R),
    ∃ w, Walk p s w ∧ w.length ≤ k ∧ (extract p q k s pol score).policy = (w.map (fun x => p.move x.1 x.2)).foldl record pol ∧
      ∀ y, (extract p q k s pol score).score = some y → Complete p k w ∧ y = score + total p w := by
  induction k with
  | zero =>
    intro s pol score
    refine ⟨[], trivial, by simp, rfl, fun y hy => ⟨.inl rfl, ?_⟩⟩
    simp only [extract, Option.some.injEq] at hy
    simp [total, hy]
  | succ k ih =>
    intro s pol score
    simp only [extract]
    cases hb : best (q s) with
    | none => exact ⟨[], trivial, by simp, rfl, by simp⟩
    | some a =>
      obtain ⟨y, hy, _⟩ := best_some hb
      have ha := hq s a y hy
      simp only
      by_cases hd : p.done s a = true
      · rw [if_pos hd]
        refine ⟨[(s, a)], ⟨rfl, ha, fun _ => rfl, trivial⟩, by simp, rfl, fun y hy => ⟨.inr ⟨(s, a), rfl, hd⟩, ?_⟩⟩
        simp only [Option.some.injEq] at hy
        simp [total, hy]
      · rw [if_neg hd]
        obtain ⟨w, h1, h2, h3, h4⟩ := ih (p.next s a) (record pol (p.move s a)) (score + p.reward s a)
        refine ⟨(s, a) :: w, ⟨rfl, ha, fun h => absurd h hd, h1⟩, by simpa using h2, by simpa using h3, ?_⟩
        intro y hy
        obtain ⟨h5, h6⟩ := h4 y hy
        exact ⟨complete_cons h5 _, by rw [h6]; simp [total, add_assoc]⟩

/-! ### All episodes -/

/-- Sum of the rewards of an attempt from the start to the end (or of the greatest number of steps). -/
def Attempt (p : Proc R) (c : Cfg R) (start : Nat) (y : R) : Prop :=
  ∃ w, Walk p start w ∧ w.length ≤ c.maxSteps ∧ Complete p c.maxSteps w ∧ y = total p w

/-- What holds between episodes. -/
structure Inv (p : Proc R) (c : Cfg R) (start : Nat) (st : St R) : Prop where
  offered : Offered p st.table
  walk : ∃ w, Walk p start w ∧ w.length ≤ c.maxSteps ∧ st.policy = written p w
  real : ∀ x ∈ st.scores, Attempt p c start x
  split : (st.scores = [] ∧ st.best = none ∧ st.noImprovement = 0) ∨ ∃ pre b post, st.scores = pre ++ b :: post ∧ st.best = some b ∧
    (∀ x ∈ pre, x < b) ∧ (∀ x ∈ post, x ≤ b) ∧ st.noImprovement ≤ post.length

theorem inv_init (p : Proc R) (c : Cfg R) (start : Nat) : Inv p c start St.init :=
  ⟨by intro s a x h; simp [St.init] at h, ⟨[], trivial, by simp, rfl⟩, by simp [St.init], .inl ⟨rfl, rfl, rfl⟩⟩

theorem above_some (x b : R) : above (some x) (some b) = true ↔ b < x := by simp [above]

theorem Inv.below {p : Proc R} {c : Cfg R} {start : Nat} {st : St R} (h : Inv p c start st) {y : R}
    (ha : above (some y) st.best = true) : ∀ x ∈ st.scores, x < y := by
  rcases h.split with ⟨h1, _, _⟩ | ⟨pre, b, post, h1, h2, h3, h4, _⟩
  · simp [h1]
  · rw [h2, above_some] at ha
    intro x hx
    rw [h1] at hx
    rcases List.mem_append.1 hx with hx | hx
    · exact (h3 x hx).trans ha
    · rcases List.mem_cons.1 hx with rfl | hx
      · exact ha
      · exact lt_of_le_of_lt (h4 x hx) ha

theorem scored_inv {p : Proc R} {c : Cfg R} {start : Nat} {st : St R} (h : Inv p c start st) {q : Table R} (hq : Offered p q) {score : R}
    (hs : Attempt p c start score) : Inv p c start (scored st q score) := by
  have hreal : ∀ x ∈ st.scores ++ [score], Attempt p c start x := by
    intro x hx
    rcases List.mem_append.1 hx with hx | hx
    · exact h.real x hx
    · simp only [List.mem_singleton] at hx; rw [hx]; exact hs
  unfold scored
  by_cases ha : above (some score) st.best = true
  · rw [if_pos ha]
    exact ⟨hq, h.walk, hreal, .inr ⟨st.scores, score, [], rfl, rfl, h.below ha, by simp, Nat.le_refl _⟩⟩
  · rw [if_neg ha]
    refine ⟨hq, h.walk, hreal, .inr ?_⟩
    rcases h.split with ⟨_, h2, _⟩ | ⟨pre, b, post, h1, h2, h3, h4, h5⟩
    · rw [h2] at ha; exact absurd rfl ha
    · refine ⟨pre, b, post ++ [score], by simp [h1], h2, h3, ?_, ?_⟩
      · intro x hx
        rcases List.mem_append.1 hx with hx | hx
        · exact h4 x hx
        · simp only [List.mem_singleton] at hx
          rw [h2, above_some] at ha
          rw [hx]
          exact not_lt.1 ha
      · simp only [List.length_append, List.length_singleton]; omega

theorem judge_inv {p : Proc R} {c : Cfg R} {start : Nat} {abort : Bool} {st : St R} (h : Inv p c start st) :
    Inv p c start (judge p c start abort st).1 ∧
      ((judge p c start abort st).2 = true → abort = false → 0 < c.stop →
        (∃ w, Walk p start w ∧ w.length ≤ c.maxSteps ∧ Complete p c.maxSteps w ∧ (judge p c start abort st).1.policy = written p w) ∧
        c.stop ≤ (judge p c start abort st).1.noImprovement) := by
  obtain ⟨w, h1, h2, h3, h4⟩ := extract_walk h.offered c.maxSteps start [] (0 : R)
  unfold judge
  by_cases hc : c.stop ≤ st.noImprovement ∨ abort = true
  · rw [if_pos hc]
    cases hx : (extract p st.table c.maxSteps start [] 0).score with
    | none =>
      have hn : above (none : Option R) st.best = false := rfl
      rw [hn, if_neg (by simp)]
      refine ⟨⟨h.offered, ⟨w, h1, h2, h3⟩, h.real, ?_⟩, ?_⟩
      · rcases h.split with ⟨a1, a2, a3⟩ | ⟨pre, b, post, a1, a2, a3, a4, a5⟩
        · exact .inl ⟨a1, a2, by simp [extracted, hx]⟩
        · exact .inr ⟨pre, b, post, a1, a2, a3, a4, by simp [extracted, hx]⟩
      · intro hf ha hs
        simp only [extracted, hx, if_true, ha, Bool.or_false, decide_eq_true_eq] at hf
        omega
    | some y =>
      obtain ⟨h5, h6⟩ := h4 y hx
      rw [zero_add] at h6
      by_cases hab : above (some y) st.best = true
      · rw [if_pos hab]
        refine ⟨⟨h.offered, ⟨w, h1, h2, h3⟩, ?_, ?_⟩, by simp⟩
        · intro x hx'
          rcases List.mem_append.1 hx' with hx' | hx'
          · exact h.real x hx'
          · simp only [Option.toList_some, List.mem_singleton] at hx'
            rw [hx']
            exact ⟨w, h1, h2, h5, h6⟩
        · exact .inr ⟨st.scores, y, [], rfl, rfl, h.below hab, by simp, Nat.le_refl _⟩
      · rw [if_neg hab]
        refine ⟨⟨h.offered, ⟨w, h1, h2, h3⟩, h.real, ?_⟩, ?_⟩
        · have : (extracted st (extract p st.table c.maxSteps start [] 0)).noImprovement = st.noImprovement := by simp [extracted, hx]
          rcases h.split with ⟨a1, a2, a3⟩ | ⟨pre, b, post, a1, a2, a3, a4, a5⟩
          · exact .inl ⟨a1, a2, this.trans a3⟩
          · exact .inr ⟨pre, b, post, a1, a2, a3, a4, by rw [this]; exact a5⟩
        · intro hf ha hs
          refine ⟨⟨w, h1, h2, h5, h3⟩, ?_⟩
          simpa [ha] using hf
  · rw [if_neg hc]
    exact ⟨h, by simp⟩

theorem episodes_inv {p : Proc R} {c : Cfg R} {start : Nat} {rnd : Nat → Nat → Draw} {abort : Nat → Bool} (k : Nat) :
    ∀ {st st' : St R} {f : Bool}, Inv p c start st → episodes p c start rnd abort k st = .ok (st', f) → Inv p c start st' ∧
      (f = true → (∀ k, abort k = false) → 0 < c.stop →
        (∃ w, Walk p start w ∧ w.length ≤ c.maxSteps ∧ Complete p c.maxSteps w ∧ st'.policy = written p w) ∧
        c.stop ≤ st'.noImprovement) := by
  induction k with
  | zero =>
    intro st st' f h he
    simp only [episodes, Outcome.ok.injEq, Prod.mk.injEq] at he
    rw [← he.1, ← he.2]
    exact ⟨h, by simp⟩
  | succ k ih =>
    intro st st' f h he
    simp only [episodes] at he
    cases ht : train p c (rnd k) c.maxSteps start st.table 0 with
    | throws => simp [ht] at he
    | ub => simp [ht] at he
    | ok r =>
      rw [ht, Outcome.bind_ok] at he
      obtain ⟨h1, w, h2, h3, h4, h5⟩ := train_walk c.maxSteps h.offered ht
      obtain ⟨h6, h7⟩ := judge_inv (abort := abort k) (scored_inv h h1 (score := r.2) ⟨w, h2, h3, h4, by rw [h5, zero_add]⟩)
      by_cases hf : (judge p c start (abort k) (scored st r.1 r.2)).2 = true
      · rw [if_pos hf, Outcome.ok.injEq, Prod.mk.injEq] at he
        rw [← he.1]
        exact ⟨h6, fun _ ha hs => h7 hf (ha k) hs⟩
      · rw [if_neg hf] at he
        exact ih h6 he

theorem run_inv {p : Proc R} {c : Cfg R} {start : Nat} {rnd : Nat → Nat → Draw} {aborted : Bool} {abort : Nat → Bool} {st : St R} {f : Bool}
    (h : run p c start rnd aborted abort = .ok (st, f)) : Inv p c start st ∧
      (f = true → (∀ k, abort k = false) → 0 < c.stop →
        (∃ w, Walk p start w ∧ w.length ≤ c.maxSteps ∧ Complete p c.maxSteps w ∧ st.policy = written p w) ∧
        c.stop ≤ st.noImprovement) := by
  unfold run at h
  by_cases ha : aborted = true
  · rw [if_pos ha, Outcome.ok.injEq, Prod.mk.injEq] at h
    rw [← h.1, ← h.2]
    exact ⟨inv_init p c start, by simp⟩
  · rw [if_neg ha] at h
    exact episodes_inv _ (inv_init p c start) h

/-- **C92, policy.**  Whatever is drawn and whenever the time is up: the policy returned is what is written for a walk from the start whose
steps are all offered where they are taken, of at most `max_steps` steps, and without a step after the end. -/
theorem policy_walk {p : Proc R} {c : Cfg R} {start : Nat} {rnd : Nat → Nat → Draw} {aborted : Bool} {abort : Nat → Bool} {st : St R} {f : Bool}
    (h : run p c start rnd aborted abort = .ok (st, f)) : ∃ w, Walk p start w ∧ w.length ≤ c.maxSteps ∧ st.policy = written p w :=
  (run_inv h).1.walk

/-- If training breaks off because nothing improved any more, the walk goes to the end or has `max_steps` steps, without any assumption on the
process. -/
theorem complete_partial {p : Proc R} {c : Cfg R} {start : Nat} {rnd : Nat → Nat → Draw} {aborted : Bool} {abort : Nat → Bool} {st : St R}
    (h : run p c start rnd aborted abort = .ok (st, true)) (ha : ∀ k, abort k = false) (hs : 0 < c.stop) :
    ∃ w, Walk p start w ∧ w.length ≤ c.maxSteps ∧ Complete p c.maxSteps w ∧ st.policy = written p w :=
  ((run_inv h).2 rfl ha hs).1

/-- **C92, when training ends.**  Breaking off because nothing improved means: `improvement_stop` attempts in a row brought no sum of rewards
above one seen before them, which was above all before it; all these sums are of attempts that can be made. -/
theorem stop_rule {p : Proc R} {c : Cfg R} {start : Nat} {rnd : Nat → Nat → Draw} {aborted : Bool} {abort : Nat → Bool} {st : St R}
    (h : run p c start rnd aborted abort = .ok (st, true)) (ha : ∀ k, abort k = false) (hs : 0 < c.stop) :
    ∃ pre b post, st.scores = pre ++ b :: post ∧ c.stop ≤ post.length ∧ (∀ x ∈ pre, x < b) ∧ (∀ x ∈ post, x ≤ b) ∧
      ∀ x ∈ st.scores, Attempt p c start x := by
  obtain ⟨h1, h2⟩ := run_inv h
  have h3 := (h2 rfl ha hs).2
  rcases h1.split with ⟨_, _, h4⟩ | ⟨pre, b, post, h4, _, h5, h6, h7⟩
  · omega
  · exact ⟨pre, b, post, h4, h3.trans h7, h5, h6, h1.real⟩

/-! ### No state without estimates is met -/

/-- Something is known of a state. -/
def Known (q : Table R) (s : Nat) : Prop := ∃ (a : Nat) (x : R), (q s)[a]? = some (some x)

/-- Estimated steps lead to the end, to a state of which something is known, or to the current one. -/
def Trod (p : Proc R) (q : Table R) (cur : Option Nat) : Prop :=
  ∀ s a x, (q s)[a]? = some (some x) → p.done s a = false → Known q (p.next s a) ∨ cur = some (p.next s a)

theorem join_some {o : Option (Option R)} {x : R} (h : o.join = some x) : o = some (some x) := by
  cases o with
  | none => simp at h
  | some v => simp at h; rw [h]

theorem update_entry (lr γ : R) (q : Table R) (s a s' : Nat) (r : R) : ∃ x, (qUpdate lr γ q s a s' r s)[a]? = some (some x) := by
  unfold qUpdate
  rw [if_pos rfl, List.getElem?_set_self (by unfold padRow; simp; omega)]
  exact ⟨_, rfl⟩

theorem known_update {q : Table R} {t : Nat} (h : Known q t) (lr γ : R) (s a s' : Nat) (r : R) : Known (qUpdate lr γ q s a s' r) t := by
  by_cases ht : t = s
  · rw [ht]; exact ⟨a, update_entry lr γ q s a s' r⟩
  · obtain ⟨b, x, hx⟩ := h
    have := Learn.q_update_frame_partial lr γ q s a s' r t b (by rintro ⟨h1, _⟩; exact ht h1)
    rw [hx] at this
    exact ⟨b, x, join_some this⟩

theorem trod_update {p : Proc R} {q : Table R} {s : Nat} (h : Trod p q (some s)) (lr γ : R) (a : Nat) (r : R) :
    Trod p (qUpdate lr γ q s a (p.next s a) r) (if p.done s a then none else some (p.next s a)) := by
  intro t b x hx hd
  by_cases hc : t = s ∧ b = a
  · rw [hc.1, hc.2] at hd ⊢
    rw [hd]
    exact .inr rfl
  · have := Learn.q_update_frame_partial lr γ q s a (p.next s a) r t b hc
    rw [hx] at this
    rcases h t b x (join_some this.symm) hd with h1 | h1
    · exact .inl (known_update h1 _ _ _ _ _ _)
    · simp only [Option.some.injEq] at h1
      rw [← h1]
      exact .inl ⟨a, update_entry lr γ q s a _ r⟩

theorem getElem?_init (q : Table R) (s n t b : Nat) (x : R) :
    ((if q s = [] then fun t => if t = s then List.replicate n none else q t else q) t)[b]? = some (some x) ↔ (q t)[b]? = some (some x) := by
  by_cases hq : q s = []
  · rw [if_pos hq]
    by_cases ht : t = s
    · subst ht
      rw [if_pos rfl, hq, List.getElem?_replicate]
      split <;> simp
    · rw [if_neg ht]
  · rw [if_neg hq]

theorem choose_same {p : Proc R} {c : Cfg R} {q : Table R} {s : Nat} {d : Draw} {r : Nat × Table R} (h : choose p c q s d = .ok r) :
    ∀ (t b : Nat) (x : R), (r.2 t)[b]? = some (some x) ↔ (q t)[b]? = some (some x) := by
  have hr : randomAction p c q s d = .ok r → ∀ (t b : Nat) (x : R), (r.2 t)[b]? = some (some x) ↔ (q t)[b]? = some (some x) := by
    intro h t b x
    unfold randomAction at h
    split at h
    · simp at h
    · simp only [Outcome.ok.injEq] at h
      rw [← h]
      exact getElem?_init q s _ t b x
  unfold choose at h
  by_cases hg : d.greedy = true
  · rw [if_pos hg] at h
    cases hb : best (q s) with
    | none => rw [hb] at h; exact hr h
    | some a => rw [hb] at h; simp only [Outcome.ok.injEq] at h; rw [← h]; intro t b x; rfl
  · rw [if_neg hg] at h; exact hr h

theorem train_trod {p : Proc R} {c : Cfg R} {rnd : Nat → Draw} (k : Nat) : ∀ {s : Nat} {q : Table R} {score : R} {r : Table R × R},
    Offered p q → Trod p q (some s) → train p c rnd k s q score = .ok r → (∀ t, Known q t → Known r.1 t) ∧
      ∃ w, Walk p s w ∧ Complete p k w ∧ (Ends p w → Trod p r.1 none ∧ Known r.1 s) := by
  induction k with
  | zero =>
    intro s q score r _ _ h
    simp only [train, Outcome.ok.injEq] at h
    subst h
    refine ⟨fun t h => h, [], trivial, .inl rfl, ?_⟩
    rintro ⟨x, hx, _⟩
    simp at hx
  | succ k ih =>
    intro s q score r hq htr h
    simp only [train] at h
    cases hc : choose p c q s (rnd k) with
    | throws => simp [hc] at h
    | ub => simp [hc] at h
    | ok x =>
      obtain ⟨h1, h2⟩ := choose_ok hq hc
      have hsame := choose_same hc
      have hk0 : ∀ t, Known q t → Known x.2 t := fun t ⟨b, y, hy⟩ => ⟨b, y, (hsame t b y).2 hy⟩
      have ht0 : Trod p x.2 (some s) := by
        intro t b y hy hd
        rcases htr t b y ((hsame t b y).1 hy) hd with h3 | h3
        · exact .inl (hk0 _ h3)
        · exact .inr h3
      have h3 := offered_update h2 c.lr c.discount s x.1 (p.next s x.1) (p.reward s x.1) h1
      have h4 := trod_update ht0 c.lr c.discount x.1 (p.reward s x.1)
      have h5 : Known (qUpdate c.lr c.discount x.2 s x.1 (p.next s x.1) (p.reward s x.1)) s := ⟨_, update_entry _ _ _ _ _ _ _⟩
      rw [hc, Outcome.bind_ok] at h
      by_cases hd : p.done s x.1 = true
      · rw [if_pos hd, Outcome.ok.injEq] at h
        subst h
        rw [if_pos hd] at h4
        exact ⟨fun t ht => known_update (hk0 t ht) _ _ _ _ _ _, [(s, x.1)], ⟨rfl, h1, fun _ => rfl, trivial⟩, .inr ⟨(s, x.1), rfl, hd⟩,
          fun _ => ⟨h4, h5⟩⟩
      · rw [if_neg hd] at h h4
        obtain ⟨h6, w, h7, h8, h9⟩ := ih h3 h4 h
        refine ⟨fun t ht => h6 t (known_update (hk0 t ht) _ _ _ _ _ _), (s, x.1) :: w, ⟨rfl, h1, fun h => absurd h hd, h7⟩,
          complete_cons h8 _, ?_⟩
        rintro ⟨y, hy, hyd⟩
        cases w with
        | nil =>
          simp only [List.getLast?_singleton, Option.some.injEq] at hy
          rw [← hy] at hyd
          exact absurd hyd hd
        | cons z w =>
          rw [List.getLast?_cons_cons] at hy
          exact ⟨(h9 ⟨y, hy, hyd⟩).1, h6 s h5⟩

theorem extract_trod {p : Proc R} {q : Table R} (ht : Trod p q none) (k : Nat) : ∀ (s : Nat) (pol : List Entry) (score : R), Known q s →
    (extract p q k s pol score).score ≠ none := by
  induction k with
  | zero => intro s pol score _; simp [extract]
  | succ k ih =>
    intro s pol score hs
    simp only [extract]
    cases hb : best (q s) with
    | none =>
      obtain ⟨a, x, hx⟩ := hs
      exact absurd (List.mem_of_getElem? hx) (best_none hb x)
    | some a =>
      obtain ⟨y, hy, _⟩ := best_some hb
      simp only
      by_cases hd : p.done s a = true
      · rw [if_pos hd]; simp
      · rw [if_neg hd]
        apply ih
        rcases ht s a y hy (by simpa using hd) with h | h
        · exact h
        · simp at h

/-- Every walk of the greatest number of steps comes to its end (`MM.Env.episode_ends` for the environment). -/
def Bounded (p : Proc R) (c : Cfg R) (start : Nat) : Prop := ∀ w, Walk p start w → w.length = c.maxSteps → Ends p w

/-- What holds between episodes if walks end. -/
structure Whole (p : Proc R) (c : Cfg R) (start : Nat) (st : St R) : Prop where
  offered : Offered p st.table
  trod : Trod p st.table none
  known : st.scores ≠ [] → Known st.table start
  walk : st.policy = [] ∨ ∃ w, Walk p start w ∧ w.length ≤ c.maxSteps ∧ Ends p w ∧ st.policy = written p w

theorem judge_whole {p : Proc R} {c : Cfg R} {start : Nat} (hB : Bounded p c start) {abort : Bool} {st : St R} (h : Whole p c start st)
    (hs : st.scores ≠ []) : Whole p c start (judge p c start abort st).1 ∧ ((judge p c start abort st).2 = true →
      ∃ w, Walk p start w ∧ w.length ≤ c.maxSteps ∧ Ends p w ∧ (judge p c start abort st).1.policy = written p w) := by
  obtain ⟨w, h1, h2, h3, h4⟩ := extract_walk h.offered c.maxSteps start [] (0 : R)
  have hx := extract_trod h.trod c.maxSteps start [] (0 : R) (h.known hs)
  obtain ⟨y, hy⟩ := Option.ne_none_iff_exists'.1 hx
  have he : Ends p w := by
    rcases (h4 y hy).1 with h5 | h5
    · exact hB w h1 h5
    · exact h5
  unfold judge
  by_cases hc : c.stop ≤ st.noImprovement ∨ abort = true
  · rw [if_pos hc]
    by_cases hab : above (extract p st.table c.maxSteps start [] 0).score st.best = true
    · rw [if_pos hab]
      exact ⟨⟨h.offered, h.trod, fun _ => h.known hs, .inr ⟨w, h1, h2, he, h3⟩⟩, by simp⟩
    · rw [if_neg hab]
      exact ⟨⟨h.offered, h.trod, fun _ => h.known hs, .inr ⟨w, h1, h2, he, h3⟩⟩, fun _ => ⟨w, h1, h2, he, h3⟩⟩
  · rw [if_neg hc]
    exact ⟨h, by simp⟩

theorem episodes_whole {p : Proc R} {c : Cfg R} {start : Nat} (hB : Bounded p c start) {rnd : Nat → Nat → Draw}
    {abort : Nat → Bool} (k : Nat) : ∀ {st st' : St R} {f : Bool}, Whole p c start st → episodes p c start rnd abort k st = .ok (st', f) →
      Whole p c start st' ∧
      (f = true → ∃ w, Walk p start w ∧ w.length ≤ c.maxSteps ∧ Ends p w ∧ st'.policy = written p w) := by
  induction k with
  | zero =>
    intro st st' f h he
    simp only [episodes, Outcome.ok.injEq, Prod.mk.injEq] at he
    rw [← he.1, ← he.2]
    exact ⟨h, by simp⟩
  | succ k ih =>
    intro st st' f h he
    simp only [episodes] at he
    cases ht : train p c (rnd k) c.maxSteps start st.table 0 with
    | throws => simp [ht] at he
    | ub => simp [ht] at he
    | ok r =>
      rw [ht, Outcome.bind_ok] at he
      have htr : Trod p st.table (some start) := by
        intro s a x hx hd
        rcases h.trod s a x hx hd with h1 | h1
        · exact .inl h1
        · simp at h1
      obtain ⟨-, w, h2, h3, h4⟩ := train_trod c.maxSteps h.offered htr ht
      have hew : Ends p w := by
        rcases h3 with h5 | h5
        · exact hB w h2 h5
        · exact h5
      obtain ⟨h5, h6⟩ := h4 hew
      have hoff := (train_walk c.maxSteps h.offered ht).1
      have hw : Whole p c start (scored st r.1 r.2) ∧ (scored st r.1 r.2).scores ≠ [] := by
        unfold scored
        split
        · exact ⟨⟨hoff, h5, fun _ => h6, h.walk⟩, by simp⟩
        · exact ⟨⟨hoff, h5, fun _ => h6, h.walk⟩, by simp⟩
      obtain ⟨h7, h8⟩ := judge_whole hB (abort := abort k) hw.1 hw.2
      by_cases hf : (judge p c start (abort k) (scored st r.1 r.2)).2 = true
      · rw [if_pos hf, Outcome.ok.injEq, Prod.mk.injEq] at he
        rw [← he.1]
        exact ⟨h7, fun _ => h8 hf⟩
      · rw [if_neg hf] at he
        exact ih h7 he

theorem whole_init (p : Proc R) (c : Cfg R) (start : Nat) : Whole p c start St.init :=
  ⟨by intro s a x h; simp [St.init] at h, by intro s a x h; simp [St.init] at h, by simp [St.init], .inl rfl⟩

/-- **C92, whole policies.**  Every attempt ends within `max_steps`, as the environment guarantees (`MM.Env.episode_ends`): then a policy,
whenever it is written and also when the time is up, is that of a walk to the end, and there is one whenever training breaks off.
Missing: a policy if the episodes run out before (`few_episodes_fails`). -/
theorem whole_partial {p : Proc R} {c : Cfg R} {start : Nat} (hB : Bounded p c start) {rnd : Nat → Nat → Draw} {aborted : Bool}
    {abort : Nat → Bool} {st : St R} {f : Bool} (h : run p c start rnd aborted abort = .ok (st, f)) (hp : st.policy ≠ [] ∨ f = true) :
    ∃ w, Walk p start w ∧ w.length ≤ c.maxSteps ∧ Ends p w ∧ st.policy = written p w := by
  have : Whole p c start st ∧ (f = true → ∃ w, Walk p start w ∧ w.length ≤ c.maxSteps ∧ Ends p w ∧ st.policy = written p w) := by
    unfold run at h
    by_cases ha : aborted = true
    · rw [if_pos ha, Outcome.ok.injEq, Prod.mk.injEq] at h
      rw [← h.1, ← h.2]
      exact ⟨whole_init p c start, by simp⟩
    · rw [if_neg ha] at h
      exact episodes_whole hB _ (whole_init p c start) h
  rcases hp with hp | hp
  · rcases this.1.walk with h1 | h1
    · exact absurd h1 hp
    · exact h1
  · exact this.2 hp

/-! ### No undefined behaviour -/

theorem train_ok {p : Proc R} {c : Cfg R} {rnd : Nat → Draw} (hn : ∀ s, p.actions s ≠ []) (k : Nat) : ∀ (s : Nat) (q : Table R) (score : R),
    ∃ r, train p c rnd k s q score = .ok r := by
  induction k with
  | zero => intro s q score; exact ⟨_, rfl⟩
  | succ k ih =>
    intro s q score
    have hr : ∃ x, randomAction p c q s (rnd k) = .ok x := by
      unfold randomAction
      have : min ((p.actions s).length - 1) (rnd k).number < (p.actions s).length := by
        have := List.length_pos_iff.2 (hn s); omega
      rw [List.getElem?_eq_getElem this]
      exact ⟨_, rfl⟩
    have hc : ∃ x, choose p c q s (rnd k) = .ok x := by
      unfold choose
      by_cases hg : (rnd k).greedy = true
      · rw [if_pos hg]
        cases best (q s) with
        | none => exact hr
        | some a => exact ⟨_, rfl⟩
      · rw [if_neg hg]; exact hr
    obtain ⟨x, hx⟩ := hc
    simp only [train, hx, Outcome.bind_ok]
    by_cases hd : p.done s x.1 = true
    · rw [if_pos hd]; exact ⟨_, rfl⟩
    · rw [if_neg hd]; exact ih _ _ _

theorem episodes_ok {p : Proc R} {c : Cfg R} {start : Nat} {rnd : Nat → Nat → Draw} {abort : Nat → Bool} (hn : ∀ s, p.actions s ≠ []) (k : Nat) :
    ∀ st : St R, ∃ r, episodes p c start rnd abort k st = .ok r := by
  induction k with
  | zero => intro st; exact ⟨_, rfl⟩
  | succ k ih =>
    intro st
    obtain ⟨r, hr⟩ := train_ok (c := c) (rnd := rnd k) hn c.maxSteps start st.table 0
    simp only [episodes, hr, Outcome.bind_ok]
    by_cases hf : (judge p c start (abort k) (scored st r.1 r.2)).2 = true
    · rw [if_pos hf]; exact ⟨_, rfl⟩
    · rw [if_neg hf]; exact ih _

/-- **C92, defined.**  If at least one action is offered everywhere, as the environment guarantees (`actions_offered`), training ends without
undefined behaviour and without an exception, whatever is drawn. -/
theorem no_ub {p : Proc R} (hn : ∀ s, p.actions s ≠ []) (c : Cfg R) (start : Nat) (rnd : Nat → Nat → Draw) (aborted : Bool)
    (abort : Nat → Bool) : ∃ r, run p c start rnd aborted abort = .ok r := by
  unfold run
  cases aborted with
  | true => exact ⟨_, rfl⟩
  | false => exact episodes_ok hn _ _

/-- The environment offers at least one action in every state. -/
theorem actions_offered {S : Type} {c : Env.Cfg} {e : Env.Env S} {l : List Nat} (h : Env.actions c e = .ok l) : l ≠ [] := by
  unfold Env.actions at h
  cases hs : e.states[e.cur]? with
  | none => simp [hs] at h
  | some s =>
    rw [hs] at h
    simp only at h
    cases hl : s.getLast? with
    | none => rw [hl] at h; simp only [Outcome.ok.injEq] at h; rw [← h]; simp
    | some x =>
      rw [hl] at h
      simp only at h
      by_cases hx : x < c.n ∧ 0 < c.edges x.toNat
      · rw [if_pos hx, Outcome.ok.injEq] at h
        rw [← h]
        intro hr
        have := congrArg List.length hr
        simp at this
        omega
      · rw [if_neg hx, Outcome.ok.injEq] at h; rw [← h]; simp

/-! ### Few episodes -/

theorem few_aux {p : Proc R} {c : Cfg R} {start : Nat} {rnd : Nat → Nat → Draw} {abort : Nat → Bool} (ha : ∀ k, abort k = false) (k : Nat) :
    ∀ {st st' : St R} {f : Bool}, st.policy = [] → st.scores.length + k ≤ c.stop →
      ((st.scores = [] ∧ st.best = none) ∨ st.noImprovement < st.scores.length) →
      episodes p c start rnd abort k st = .ok (st', f) → st'.policy = [] ∧ f = false := by
  induction k with
  | zero =>
    intro st st' f hp _ _ he
    simp only [episodes, Outcome.ok.injEq, Prod.mk.injEq] at he
    rw [← he.1, ← he.2]
    exact ⟨hp, rfl⟩
  | succ k ih =>
    intro st st' f hp hk hni he
    simp only [episodes] at he
    cases ht : train p c (rnd k) c.maxSteps start st.table 0 with
    | throws => simp [ht] at he
    | ub => simp [ht] at he
    | ok r =>
      rw [ht, Outcome.bind_ok] at he
      have h1 : (scored st r.1 r.2).policy = [] ∧ (scored st r.1 r.2).scores.length = st.scores.length + 1 ∧
          (scored st r.1 r.2).noImprovement < st.scores.length + 1 := by
        unfold scored
        by_cases hab : above (some r.2) st.best = true
        · rw [if_pos hab]; exact ⟨hp, by simp, by simp⟩
        · rw [if_neg hab]
          rcases hni with ⟨_, h2⟩ | h2
          · rw [h2] at hab; exact absurd rfl hab
          · exact ⟨hp, by simp, by simp only; omega⟩
      have hj : judge p c start (abort k) (scored st r.1 r.2) = (scored st r.1 r.2, false) := by
        unfold judge
        rw [if_neg]
        rw [ha k]
        simp only [Bool.false_eq_true, or_false]
        omega
      rw [hj] at he
      simp only [Bool.false_eq_true, if_false] at he
      exact ih h1.1 (by rw [h1.2.1]; omega) (.inr (by rw [h1.2.1]; exact h1.2.2)) he

/-- **C92 fails for few episodes**: the policy is written only when training breaks off (q_learning.hpp 172-223), so if the episodes run out
before `improvement_stop` of them could bring nothing new, training was for nothing and the policy is empty: the track stays unmatched. -/
theorem few_episodes_fails {p : Proc R} {c : Cfg R} (hc : c.episodes ≤ c.stop) {start : Nat} {rnd : Nat → Nat → Draw} {aborted : Bool}
    {abort : Nat → Bool} (ha : ∀ k, abort k = false) {st : St R} {f : Bool} (h : run p c start rnd aborted abort = .ok (st, f)) :
    st.policy = [] ∧ f = false := by
  unfold run at h
  cases aborted with
  | true =>
    simp only [if_true, Outcome.ok.injEq, Prod.mk.injEq] at h
    rw [← h.1, ← h.2]
    exact ⟨rfl, rfl⟩
  | false => exact few_aux ha c.episodes rfl (by simp [St.init]; exact hc) (.inl ⟨rfl, rfl⟩) h

/-! ### What is learned -/

/-- Every offered step has the estimate that an update would assign again, no other has one, and nothing is known of the end. -/
structure Settled (p : Proc R) (c : Cfg R) (q : Table R) : Prop where
  entry : ∀ s a, a ∈ p.actions s → (q s)[a]? = some (some (c.lr * (p.reward s a + c.discount * maxNext (q (p.next s a)))))
  only : Offered p q
  final : ∀ s a, a ∈ p.actions s → p.done s a = true → ∀ x, some x ∉ q (p.next s a)

/-- Return of a walk with a discount. -/
def ret (p : Proc R) (g : R) : List (Nat × Nat) → R
  | [] => 0
  | x :: w => p.reward x.1 x.2 + g * ret p g w

theorem maxNext_none {row : List (Option R)} (h : ∀ x, some x ∉ row) : maxNext row = 0 := by
  unfold maxNext
  have : row.filterMap id = [] := by
    rw [List.filterMap_eq_nil_iff]
    intro o ho
    cases o with
    | none => rfl
    | some x => exact absurd ho (h x)
  rw [this]

theorem le_maxNext {row : List (Option R)} {y : R} (h : some y ∈ row) : y ≤ maxNext row := by
  unfold maxNext
  have hm : y ∈ row.filterMap id := by simpa using h
  cases hf : row.filterMap id with
  | nil => rw [hf] at hm; simp at hm
  | cons z zs =>
    rw [hf] at hm
    simp only
    rcases List.mem_cons.1 hm with rfl | hy
    · exact Learn.le_foldl_max zs _
    · exact mem_le_foldl zs z y hy

theorem walk_le {p : Proc R} {c : Cfg R} {q : Table R} (hq : Settled p c q) (hlr : 0 ≤ c.lr) (hγ : 0 ≤ c.discount) (w : List (Nat × Nat)) :
    ∀ s, Walk p s w → Ends p w → c.lr * ret p (c.lr * c.discount) w ≤ maxNext (q s) := by
  induction w with
  | nil => intro s _ h; obtain ⟨x, h, _⟩ := h; simp at h
  | cons x w ih =>
    obtain ⟨t, a⟩ := x
    intro s hw he
    obtain ⟨rfl, ha, hd, hw⟩ := hw
    have h1 := le_maxNext (List.mem_of_getElem? (hq.entry t a ha))
    refine le_trans ?_ h1
    simp only [ret]
    apply mul_le_mul_of_nonneg_left _ hlr
    apply add_le_add_right
    rw [show c.lr * c.discount * ret p (c.lr * c.discount) w = c.discount * (c.lr * ret p (c.lr * c.discount) w) by ring]
    apply mul_le_mul_of_nonneg_left _ hγ
    cases w with
    | nil =>
      obtain ⟨x, h2, h3⟩ := he
      simp only [List.getLast?_singleton, Option.some.injEq] at h2
      subst h2
      rw [maxNext_none (hq.final t a ha h3)]
      simp [ret]
    | cons y w =>
      apply ih _ hw
      obtain ⟨x, h2, h3⟩ := he
      exact ⟨x, by rw [List.getLast?_cons_cons] at h2; exact h2, h3⟩

theorem extract_best {p : Proc R} {c : Cfg R} {q : Table R} (hq : Settled p c q) (k : Nat) : ∀ (s : Nat) (pol : List Entry) (score : R),
    ∃ w, Walk p s w ∧ w.length ≤ k ∧ (extract p q k s pol score).policy = (w.map (fun x => p.move x.1 x.2)).foldl record pol ∧
      (Ends p w ∧ c.lr * ret p (c.lr * c.discount) w = maxNext (q s) ∨ w.length = k ∨ (extract p q k s pol score).score = none) := by
  induction k with
  | zero => intro s pol score; exact ⟨[], trivial, by simp, rfl, .inr (.inl rfl)⟩
  | succ k ih =>
    intro s pol score
    simp only [extract]
    cases hb : best (q s) with
    | none => exact ⟨[], trivial, by simp, rfl, .inr (.inr rfl)⟩
    | some a =>
      obtain ⟨y, hy, hmax⟩ := best_some hb
      have ha := hq.only s a y hy
      have hm := maxNext_eq (List.mem_of_getElem? hy) hmax
      have he := hq.entry s a ha
      rw [hy] at he
      simp only [Option.some.injEq] at he
      simp only
      by_cases hd : p.done s a = true
      · rw [if_pos hd]
        refine ⟨[(s, a)], ⟨rfl, ha, fun _ => rfl, trivial⟩, by simp, rfl, .inl ⟨⟨(s, a), rfl, hd⟩, ?_⟩⟩
        rw [hm, he, maxNext_none (hq.final s a ha hd)]
        simp [ret]
      · rw [if_neg hd]
        obtain ⟨w, h1, h2, h3, h4⟩ := ih (p.next s a) (record pol (p.move s a)) (score + p.reward s a)
        refine ⟨(s, a) :: w, ⟨rfl, ha, fun h => absurd h hd, h1⟩, by simpa using h2, by simpa using h3, ?_⟩
        rcases h4 with ⟨⟨x, h5, h6⟩, h7⟩ | h4 | h4
        · left
          refine ⟨⟨x, by rw [List.getLast?_cons, h5]; rfl, h6⟩, ?_⟩
          rw [hm, he, ← h7]
          simp only [ret]
          ring
        · exact .inr (.inl (by simp [h4]))
        · exact .inr (.inr h4)

/-- **C92, what is learned.**  Once the estimates are settled, the policy is that of a walk whose return is the greatest of all walks to the
end, with the product of learning rate and discount in place of the discount.
Missing: the discount itself, for which it is false (`rate_fails`), and that training goes on until the estimates are settled. -/
theorem settled_partial {p : Proc R} {c : Cfg R} {q : Table R} (hq : Settled p c q) (hlr : 0 < c.lr) (hγ : 0 ≤ c.discount) (start : Nat) :
    ∃ w, Walk p start w ∧ w.length ≤ c.maxSteps ∧ (extract p q c.maxSteps start [] 0).policy = written p w ∧
      ((extract p q c.maxSteps start [] 0).score ≠ none → w.length < c.maxSteps →
        Ends p w ∧ ∀ v, Walk p start v → Ends p v → ret p (c.lr * c.discount) v ≤ ret p (c.lr * c.discount) w) := by
  obtain ⟨w, h1, h2, h3, h4⟩ := extract_best hq c.maxSteps start [] 0
  refine ⟨w, h1, h2, h3, fun hs hl => ?_⟩
  rcases h4 with ⟨h5, h6⟩ | h4 | h4
  · refine ⟨h5, fun v hv he => ?_⟩
    have := walk_le hq (le_of_lt hlr) hγ v start hv he
    rw [← h6] at this
    exact le_of_mul_le_mul_left this hlr
  · omega
  · exact absurd h4 hs

theorem update_settled {p : Proc R} {c : Cfg R} {q : Table R} (hq : Settled p c q) {s a : Nat} (ha : a ∈ p.actions s) :
    qUpdate c.lr c.discount q s a (p.next s a) (p.reward s a) = q := by
  have he := hq.entry s a ha
  obtain ⟨hlt, hv⟩ := List.getElem?_eq_some_iff.1 he
  have hp : padRow (q s) a = q s := by unfold padRow; rw [show a + 1 - (q s).length = 0 by omega]; simp
  funext t
  unfold qUpdate
  by_cases ht : t = s
  · subst ht
    rw [if_pos rfl, hp]
    have : (if p.next t a = t then q t else q (p.next t a)) = q (p.next t a) := by
      split
      · next h => rw [h]
      · rfl
    rw [this]
    apply List.ext_getElem?
    intro n
    by_cases hn : a = n
    · subst hn
      rw [List.getElem?_set_self hlt, he]
      unfold Learn.newQ
      simp
    · rw [List.getElem?_set_ne hn]
  · rw [if_neg ht]

theorem choose_settled {p : Proc R} {c : Cfg R} {q : Table R} (hq : Settled p c q) {s : Nat} {d : Draw} {r : Nat × Table R}
    (h : choose p c q s d = .ok r) : r.1 ∈ p.actions s ∧ r.2 = q := by
  refine ⟨(choose_ok hq.only h).1, ?_⟩
  have hr : ∀ {r : Nat × Table R}, randomAction p c q s d = .ok r → r.2 = q := by
    intro r h
    have ha := (random_ok hq.only h).1
    obtain ⟨hlt, _⟩ := List.getElem?_eq_some_iff.1 (hq.entry s r.1 ha)
    unfold randomAction at h
    split at h
    · simp at h
    · simp only [Outcome.ok.injEq] at h
      rw [← h]
      simp only
      rw [if_neg]
      intro h0
      rw [h0] at hlt
      simp at hlt
  unfold choose at h
  by_cases hg : d.greedy = true
  · rw [if_pos hg] at h
    cases hb : best (q s) with
    | none => rw [hb] at h; exact hr h
    | some a => rw [hb] at h; simp only [Outcome.ok.injEq] at h; rw [← h]
  · rw [if_neg hg] at h; exact hr h

/-- **C92, settled estimates stay.**  Further training does not change them, whatever is drawn. -/
theorem settled_stays {p : Proc R} {c : Cfg R} {rnd : Nat → Draw} {q : Table R} (hq : Settled p c q) (k : Nat) : ∀ {s : Nat} {score : R}
    {r : Table R × R}, train p c rnd k s q score = .ok r → r.1 = q := by
  induction k with
  | zero => intro s score r h; simp only [train, Outcome.ok.injEq] at h; rw [← h]
  | succ k ih =>
    intro s score r h
    simp only [train] at h
    cases hc : choose p c q s (rnd k) with
    | throws => simp [hc] at h
    | ub => simp [hc] at h
    | ok x =>
      obtain ⟨h1, h2⟩ := choose_settled hq hc
      rw [hc, Outcome.bind_ok, h2, update_settled hq h1] at h
      by_cases hd : p.done s x.1 = true
      · rw [if_pos hd, Outcome.ok.injEq] at h; rw [← h]
      · rw [if_neg hd] at h; exact ih h

/-! ### Cases -/

/-- Two ways to the end: at once with reward -5, or over state 1 with rewards 0 and -11/2. -/
def two : Proc Rat where
  actions s := if s = 0 then [2, 3] else [2]
  next s a := if s = 0 ∧ a = 3 then 1 else 2
  reward s a := if s = 0 then (if a = 2 then -5 else 0) else -11 / 2
  done s a := !(decide (s = 0) && decide (a = 3))
  move s a := some (s, a - 2)

/-- The defaults of learning rate and discount. -/
def cfg (episodes stop : Nat) : Cfg Rat := ⟨9 / 10, 99 / 100, episodes, stop, 4, 2⟩

/-- Draws: in episode `k` (counted down) always the given action, never the best known. -/
def fixed (f : Nat → Nat) : Nat → Nat → Draw := fun k _ => ⟨false, f k⟩

def out (o : Outcome (St Rat × Bool)) : Outcome (List Entry × List Rat × Bool) := o.map fun r => (r.1.policy, r.1.scores, r.2)

/-- Training that tries both ways in turn. -/
def both (episodes stop : Nat) : Outcome (St Rat × Bool) :=
  run two (cfg episodes stop) 0 (fixed (fun k => k % 2)) false (fun _ => false)

/-- **C92 fails for the discount**: the old estimate is cancelled in the update (C18), so every step is discounted by the learning rate in
addition.  With the default rates the policy goes over state 1, although the other way has the greater sum of rewards (an episode with it was
seen), and also the greater return with the discount given. -/
theorem rate_fails : out (both 10 4) = .ok ([(0, 1), (1, 0)], [-11 / 2, -5, -11 / 2, -5, -11 / 2, -5], true) ∧
    Walk two 0 [(0, 2)] ∧ Ends two [(0, 2)] ∧ total two [(0, 3), (1, 2)] < total two [(0, 2)] ∧
    ret two (99 / 100) [(0, 3), (1, 2)] < ret two (99 / 100) [(0, 2)] ∧ written two [(0, 3), (1, 2)] = [(0, 1), (1, 0)] := by
  refine ⟨by decide +kernel, ⟨rfl, by decide, fun _ => rfl, trivial⟩, ⟨(0, 2), rfl, rfl⟩, by decide +kernel, by decide +kernel, by rfl⟩

/-- Policies come with all walks that end: here each of at most two steps. -/
theorem two_bounded (episodes stop : Nat) : Bounded two (cfg episodes stop) 0 := by
  intro w hw hl
  simp only [cfg] at hl
  match w, hl with
  | [(s, a), (t, b), x, y], _ =>
    exfalso
    obtain ⟨rfl, ha, h1, rfl, hb, h2, _⟩ := hw
    have h3 : two.done 0 a = false := by
      cases h : two.done 0 a with
      | false => rfl
      | true => simpa using h1 h
    have h4 : a = 3 := by
      simp only [two, if_true, List.mem_cons, List.not_mem_nil, or_false] at ha
      rcases ha with rfl | rfl
      · exact absurd h3 (by decide)
      · rfl
    subst h4
    have h5 : b = 2 := by
      have : two.next 0 3 = 1 := rfl
      rw [this] at hb
      simpa [two] using hb
    subst h5
    simpa using h2 rfl

-- the hypotheses of `policy_walk`, `complete_partial`, `stop_rule` and `whole_partial`, with a policy of two steps
example : (∃ st, both 10 4 = .ok (st, true) ∧ st.policy = [(0, 1), (1, 0)]) ∧ 0 < (cfg 10 4).stop := by
  refine ⟨?_, by decide⟩
  have h := rate_fails.1
  cases hb : both 10 4 with
  | throws => simp [hb, out, Outcome.map] at h
  | ub => simp [hb, out, Outcome.map] at h
  | ok r =>
    obtain ⟨st, f⟩ := r
    rw [hb] at h
    simp only [out, Outcome.map_ok, Outcome.ok.injEq, Prod.mk.injEq] at h
    exact ⟨st, by rw [h.2.2], h.1⟩

example : ∃ pre b post, ([-11 / 2, -5, -11 / 2, -5, -11 / 2, -5] : List Rat) = pre ++ b :: post ∧ 4 ≤ post.length ∧ (∀ x ∈ pre, x < b) ∧
    ∀ x ∈ post, x ≤ b := ⟨[-11 / 2], -5, [-11 / 2, -5, -11 / 2, -5], rfl, by decide, by decide +kernel, by decide +kernel⟩

-- the time is up after the first episode: the policy is that of the only way tried
example : out (run two (cfg 10 4) 0 (fixed (fun _ => 1)) false (fun _ => true)) = .ok ([(0, 1), (1, 0)], [-11 / 2], true) := by decide +kernel

-- best known actions are taken once there are any
example : out (run two (cfg 10 2) 0 (fun k _ => ⟨decide (k < 8), k % 2⟩) false (fun _ => false)) =
    .ok ([(0, 1), (1, 0)], [-11 / 2, -5, -11 / 2, -11 / 2], true) := by decide +kernel

-- the hypothesis of `no_ub`; without it there is undefined behaviour
example : (∀ s, two.actions s ≠ []) ∧
    out (run { two with actions := fun _ => [] } (cfg 10 4) 0 (fixed (fun _ => 1)) false (fun _ => false)) = .ub := by
  refine ⟨?_, by decide +kernel⟩
  intro s
  simp only [two]
  split <;> simp

-- `actions_offered`: one action without edges
example : Env.actions Env.demo Env.e0 = .ok [2] := by rfl

-- `few_episodes_fails`: four episodes with both ways known, and no policy
example : (cfg 4 4).episodes ≤ (cfg 4 4).stop ∧ out (both 4 4) = .ok ([], [-11 / 2, -5, -11 / 2, -5], false) := by
  refine ⟨by decide, by decide +kernel⟩

/-- The estimates that `two` settles at. -/
def table : Table Rat := fun s => if s = 0 then [none, none, some (-9 / 2), some (-88209 / 20000)] else if s = 1 then [none, none, some (-99 / 20)] else []

/-- `two` with states 0 and 1 only. -/
def two' : Proc Rat := { two with actions := fun s => if s = 0 then [2, 3] else if s = 1 then [2] else [] }

-- `settled_partial` and `settled_stays`
example : Settled two' (cfg 10 4) table ∧ (extract two' table 4 0 [] 0).policy = [(0, 1), (1, 0)] := by
  refine ⟨⟨?_, ?_, ?_⟩, by decide +kernel⟩
  · intro s a ha
    by_cases h0 : s = 0
    · subst h0
      simp only [two', if_true, List.mem_cons, List.not_mem_nil, or_false] at ha
      rcases ha with rfl | rfl
      · decide +kernel
      · decide +kernel
    · by_cases h1 : s = 1
      · subst h1
        simp [two'] at ha
        subst ha
        decide +kernel
      · simp [two', h0, h1] at ha
  · intro s a x hx
    by_cases h0 : s = 0
    · subst h0
      match a, hx with
      | 2, _ => decide
      | 3, _ => decide
      | 0, hx => simp [table] at hx
      | 1, hx => simp [table] at hx
      | n + 4, hx => simp [table] at hx
    · by_cases h1 : s = 1
      · subst h1
        match a, hx with
        | 2, _ => decide
        | 0, hx => simp [table] at hx
        | 1, hx => simp [table] at hx
        | n + 3, hx => simp [table] at hx
      · simp [table, h0, h1] at hx
  · intro s a _ hd x hx
    have : two'.next s a = 2 := by
      simp only [two', two] at hd ⊢
      by_cases h : s = 0 ∧ a = 3
      · simp [h.1, h.2] at hd
      · rw [if_neg h]
    rw [this] at hx
    simp [table] at hx

end MM.QLearn
