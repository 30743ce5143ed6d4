import Verif.Proofs.Decide
import Verif.Props.LearnNear

/-!
# C96: the candidates chosen by the decision process

Value iteration and policy iteration run on the environment with its tables.  The specification speaks of plans: in each situation
one of the candidates of the next point is taken; a leg that is refused gives the connection up at this point.
-/

set_option autoImplicit false
set_option linter.unusedSectionVars false

namespace MM.Decide

open MM.Env MM.Router

variable {R : Type} [CommRing R] [LinearOrder R] [IsStrictOrderedRing R]

/-- Where a plan stands: nothing is remembered and point `t` is next; candidate `g` of point `t` was taken; point `t` had no
candidates. -/
inductive Sit
  | fresh (t : Nat)
  | after (t g : Nat)
  | blank (t : Nat)

/-- The next point. -/
def Sit.pos : Sit → Nat
  | .fresh t => t
  | .after t _ => t + 1
  | .blank t => t + 1

/-- Going on from a situation: what is noted, the reward, and the new situation. -/
inductive Goes (x : Task R) : Sit → Option Entry → R → Sit → Prop
  | gap {s : Sit} : ¬ (s.pos < x.n ∧ 0 < x.edges s.pos) → Goes x s none 0 (.blank s.pos)
  | first {t g : Nat} : t < x.n → g < x.edges t → Goes x (.fresh t) (some (t, g)) (x.first t g) (.after t g)
  | resume {t g : Nat} : t + 1 < x.n → g < x.edges (t + 1) → Goes x (.blank t) (some (t + 1, g)) 0 (.after (t + 1) g)
  | on {t g h : Nat} : t + 1 < x.n → h < x.edges (t + 1) →
      (x.skipErrors = true → (x.leg (t + 1) g h).invalid = false ∧ (x.leg (t + 1) g h).detour = false) →
      Goes x (.after t g) (some (t + 1, h)) (x.leg (t + 1) g h).reward (.after (t + 1) h)
  | skip {t g h : Nat} : t + 1 < x.n → h < x.edges (t + 1) → x.skipErrors = true →
      ((x.leg (t + 1) g h).invalid = true ∨ (x.leg (t + 1) g h).detour = true) →
      Goes x (.after t g) none (x.leg (t + 1) g h).reward (.fresh (t + 1))

/-- A plan up to the end of the track, with its discounted return. -/
inductive Plan (x : Task R) (γ : R) : Sit → List (Option Entry) → R → Prop
  | last {s s' : Sit} {o : Option Entry} {r : R} : Goes x s o r s' → x.n ≤ s'.pos → Plan x γ s [o] r
  | more {s s' : Sit} {o : Option Entry} {r : R} {l : List (Option Entry)} {v : R} : Goes x s o r s' → s'.pos < x.n →
      Plan x γ s' l v → Plan x γ s (o :: l) (r + γ * v)

/-! ### Situations as internal states -/

def Sit.st : Sit → St
  | .fresh t => [(t : Int)]
  | .after t g => [(t : Int), (g : Int), (t : Int) + 1]
  | .blank t => [(t : Int), -1, (t : Int) + 1]

def Sit.Good (x : Task R) : Sit → Prop
  | .fresh _ => True
  | .after t g => t < x.n ∧ g < x.edges t
  | .blank _ => True

variable {x : Task R} {γ : R}

theorem st_last (s : Sit) : s.st.getLast? = some (s.pos : Int) := by cases s <;> simp [Sit.st, Sit.pos]

theorem st_done (s : Sit) : done x.cfg s.st = decide (x.n ≤ s.pos) := by
  unfold done
  rw [getLastD_of (st_last s)]
  simp [Task.cfg]

theorem st_offer (s : Sit) : offer x.cfg s.st =
    if s.pos < x.n ∧ 0 < x.edges s.pos then List.range' 2 (x.edges s.pos) else [0] := by
  unfold offer
  rw [st_last]
  simp only [Task.cfg, Int.toNat_natCast, Nat.cast_lt]
  rfl

theorem st_ok {s : Sit} (h : s.Good x) : Ok x.cfg s.st := by
  cases s with
  | fresh t => exact ⟨.single _ (by omega), by simp [Sit.st, Task.cfg, Cfg.stateSize]⟩
  | after t g =>
    refine ⟨.cons _ _ _ (by omega) (fun _ => ?_) (.single _ (by omega)), by simp [Sit.st, Task.cfg, Cfg.stateSize]⟩
    unfold Sit.Good at h
    simp [Cfg.hasEdge, Task.cfg, h.1, h.2]
  | blank t =>
    exact ⟨.cons _ _ _ (by omega) (fun h => absurd h (by decide)) (.single _ (by omega)), by simp [Sit.st, Task.cfg, Cfg.stateSize]⟩

theorem hasEdge_iff (t g : Nat) : x.cfg.hasEdge (t : Int) (g : Int) = true ↔ t < x.n ∧ g < x.edges t := by
  simp [Cfg.hasEdge, Task.cfg]

theorem move_gap (s : Sit) : move x.cfg x.world s.st 0 = .ok ⟨0, (Sit.blank s.pos).st, -1⟩ := by
  cases s <;>
    simp [move, newState, rewardOf, Sit.st, Sit.pos, action2internal, noAction, Task.cfg, Cfg.stateSize, add_assoc]

theorem act_pick (h : Nat) : action2internal (h + 2) = (h : Int) := by
  unfold action2internal; rw [if_neg (by omega), if_neg (by omega)]; omega

theorem move_first {t g : Nat} (ht : t < x.n) (hg : g < x.edges t) :
    move x.cfg x.world (Sit.fresh t).st (g + 2) = .ok ⟨x.first t g, (Sit.after t g).st, g⟩ := by
  have he := (hasEdge_iff (x := x) t g).2 ⟨ht, hg⟩
  unfold move
  rw [act_pick]
  simp [newState, rewardOf, Sit.st, fromBack, he, Task.cfg, Cfg.stateSize, Task.world] at he ⊢

theorem move_resume {t g : Nat} (ht : t + 1 < x.n) (hg : g < x.edges (t + 1)) :
    move x.cfg x.world (Sit.blank t).st (g + 2) = .ok ⟨0, (Sit.after (t + 1) g).st, g⟩ := by
  have he := (hasEdge_iff (x := x) (t + 1) g).2 ⟨ht, hg⟩
  push_cast at he
  unfold move
  rw [act_pick]
  simp only [newState, rewardOf, Sit.st, fromBack]
  simp [Task.cfg, Cfg.stateSize] at he ⊢
  rw [he]

theorem move_leg {t g h : Nat} (hb : t < x.n ∧ g < x.edges t) (ht : t + 1 < x.n) (hh : h < x.edges (t + 1)) :
    move x.cfg x.world (Sit.after t g).st (h + 2) =
      if x.skipErrors = true ∧ ((x.leg (t + 1) g h).invalid = true ∨ (x.leg (t + 1) g h).detour = true) then
        .ok ⟨(x.leg (t + 1) g h).reward, (Sit.fresh (t + 1)).st, -2⟩
      else .ok ⟨(x.leg (t + 1) g h).reward, (Sit.after (t + 1) h).st, h⟩ := by
  have he := (hasEdge_iff (x := x) (t + 1) h).2 ⟨ht, hh⟩
  have he' := (hasEdge_iff (x := x) t g).2 hb
  push_cast at he
  unfold move
  rw [act_pick]
  have hw : x.world (Sit.after t g).st h = x.leg (t + 1) g h := by
    simp only [Sit.st, Task.world, Int.toNat_natCast]
    congr 1
  rw [hw]
  simp only [newState, rewardOf, Sit.st, fromBack, prevCheck]
  simp [Task.cfg, Cfg.stateSize, skipState, skipAction] at he he' ⊢
  rw [he, he']
  cases x.skipErrors <;> cases (x.leg (t + 1) g h).invalid <;> cases (x.leg (t + 1) g h).detour <;> simp

/-- Offered actions go on as the specification says. -/
theorem goes_of_move {s : Sit} (hs : s.Good x) {a : Nat} (ha : a ∈ offer x.cfg s.st) :
    ∃ m o s', move x.cfg x.world s.st a = .ok m ∧ Goes x s o m.reward s' ∧ m.state = s'.st ∧ s'.Good x ∧
      told x.cfg x.world (Encodable.encode s.st, a) = o := by
  rw [st_offer] at ha
  have htold : ∀ m, move x.cfg x.world s.st a = .ok m → told x.cfg x.world (Encodable.encode s.st, a) =
      if 0 ≤ m.action then some (s.pos, m.action.toNat) else none := by
    intro m hm
    unfold told
    simp only [Encodable.encodek, hm, getLastD_of (st_last s), Int.toNat_natCast]
  by_cases hc : s.pos < x.n ∧ 0 < x.edges s.pos
  · rw [if_pos hc, List.mem_range'_1] at ha
    obtain ⟨h, rfl⟩ : ∃ h, a = h + 2 := ⟨a - 2, by omega⟩
    have hh : h < x.edges s.pos := by omega
    cases s with
    | fresh t =>
      have hm := move_first (x := x) hc.1 hh
      refine ⟨_, _, _, hm, .first hc.1 hh, rfl, ⟨hc.1, hh⟩, ?_⟩
      rw [htold _ hm]; simp [Sit.pos]
    | blank t =>
      have hm := move_resume (x := x) hc.1 hh
      refine ⟨_, _, _, hm, .resume hc.1 hh, rfl, ⟨hc.1, hh⟩, ?_⟩
      rw [htold _ hm]; simp [Sit.pos]
    | after t g =>
      have hm := move_leg (x := x) hs hc.1 hh
      by_cases hk : x.skipErrors = true ∧ ((x.leg (t + 1) g h).invalid = true ∨ (x.leg (t + 1) g h).detour = true)
      · rw [if_pos hk] at hm
        refine ⟨_, _, _, hm, .skip hc.1 hh hk.1 hk.2, rfl, trivial, ?_⟩
        rw [htold _ hm]; simp
      · rw [if_neg hk] at hm
        refine ⟨_, _, _, hm, .on hc.1 hh (fun h => ?_), rfl, ⟨hc.1, hh⟩, ?_⟩
        · have := not_and.1 hk h
          simpa [not_or] using this
        · rw [htold _ hm]; simp [Sit.pos]
  · rw [if_neg hc] at ha
    simp only [List.mem_singleton] at ha
    subst ha
    have hm := move_gap (x := x) s
    refine ⟨_, _, _, hm, .gap hc, rfl, trivial, ?_⟩
    rw [htold _ hm]; simp

/-- What the specification allows is offered. -/
theorem move_of_goes {s s' : Sit} (hs : s.Good x) {o : Option Entry} {r : R} (hg : Goes x s o r s') :
    ∃ a ∈ offer x.cfg s.st, ∃ m, move x.cfg x.world s.st a = .ok m ∧ m.reward = r ∧ m.state = s'.st ∧ s'.Good x ∧
      told x.cfg x.world (Encodable.encode s.st, a) = o := by
  have htold : ∀ a m, move x.cfg x.world s.st a = .ok m → told x.cfg x.world (Encodable.encode s.st, a) =
      if 0 ≤ m.action then some (s.pos, m.action.toNat) else none := by
    intro a m hm
    unfold told
    simp only [Encodable.encodek, hm, getLastD_of (st_last s), Int.toNat_natCast]
  rw [st_offer]
  cases hg with
  | gap hc =>
    refine ⟨0, by rw [if_neg hc]; simp, _, move_gap s, rfl, rfl, trivial, ?_⟩
    rw [htold _ _ (move_gap s)]; simp
  | @first t g ht hg =>
    refine ⟨g + 2, ?_, _, move_first ht hg, rfl, rfl, ⟨ht, hg⟩, ?_⟩
    · rw [if_pos ⟨ht, by simp only [Sit.pos]; omega⟩, List.mem_range'_1]; simp only [Sit.pos]; omega
    · rw [htold _ _ (move_first ht hg)]; simp [Sit.pos]
  | @resume t g ht hg =>
    refine ⟨g + 2, ?_, _, move_resume ht hg, rfl, rfl, ⟨ht, hg⟩, ?_⟩
    · rw [if_pos ⟨ht, by simp only [Sit.pos]; omega⟩, List.mem_range'_1]; simp only [Sit.pos]; omega
    · rw [htold _ _ (move_resume ht hg)]; simp [Sit.pos]
  | @on t g h ht hh hk =>
    have hm := move_leg (x := x) hs ht hh
    rw [if_neg (by
      rintro ⟨h1, h2⟩
      obtain ⟨h3, h4⟩ := hk h1
      rw [h3, h4] at h2
      simp at h2)] at hm
    refine ⟨h + 2, ?_, _, hm, rfl, rfl, ⟨ht, hh⟩, ?_⟩
    · rw [if_pos ⟨ht, by simp only [Sit.pos]; omega⟩, List.mem_range'_1]; simp only [Sit.pos]; omega
    · rw [htold _ _ hm]; simp [Sit.pos]
  | @skip t g h ht hh h1 h2 =>
    have hm := move_leg (x := x) hs ht hh
    rw [if_pos ⟨h1, h2⟩] at hm
    refine ⟨h + 2, ?_, _, hm, rfl, rfl, trivial, ?_⟩
    · rw [if_pos ⟨ht, by simp only [Sit.pos]; omega⟩, List.mem_range'_1]; simp only [Sit.pos]; omega
    · rw [htold _ _ hm]; simp

/-- Internal states of good situations. -/
def Known' (x : Task R) (s : St) : Prop := ∃ t : Sit, t.Good x ∧ s = t.st

theorem task_defined (x : Task R) : Defined x.cfg x.world (Known' x) := by
  refine ⟨⟨.fresh 0, trivial, rfl⟩, ?_, ?_⟩
  · rintro s ⟨t, ht, rfl⟩; exact st_ok ht
  · rintro s ⟨t, ht, rfl⟩ a ha
    obtain ⟨m, o, s', h1, -, h3, h4, -⟩ := goes_of_move ht ha
    exact ⟨m, h1, s', h4, h3⟩

/-- The process of a task. -/
noncomputable abbrev Task.proc (x : Task R) : Learn.Proc R := Decide.proc x.cfg x.world (Known' x)

theorem episode_of_plan {s : Sit} {l : List (Option Entry)} {v : R} (h : Plan x γ s l v) (hs : s.Good x) :
    ∃ ep, Learn.Episode x.proc γ (Encodable.encode s.st) ep v ∧ ep.map (told x.cfg x.world) = l := by
  induction h with
  | @last s s' o r hg hn =>
    obtain ⟨a, ha, m, hm, rfl, h1, h2, h3⟩ := move_of_goes hs hg
    refine ⟨[(Encodable.encode s.st, a)], ?_, by simp [h3]⟩
    rw [← proc_reward (I := Known' x) ⟨s, hs, rfl⟩ hm]
    refine .last (by rw [proc_actions]; exact ha) ?_
    rw [proc_done ⟨s, hs, rfl⟩ hm, h1, st_done]
    simpa using hn
  | @more s s' o r l v hg hn _ ih =>
    obtain ⟨a, ha, m, hm, rfl, h1, h2, h3⟩ := move_of_goes hs hg
    obtain ⟨ep, hep, hl⟩ := ih h2
    refine ⟨(Encodable.encode s.st, a) :: ep, ?_, by simp [h3, hl]⟩
    rw [← proc_reward (I := Known' x) ⟨s, hs, rfl⟩ hm]
    refine .step (by rw [proc_actions]; exact ha) ?_ ?_
    · rw [proc_done ⟨s, hs, rfl⟩ hm, h1, st_done]
      simpa using hn
    · rw [proc_next hm, h1]; exact hep

theorem plan_of_episode {n : Nat} {ep : List (Nat × Nat)} {v : R} (h : Learn.Episode x.proc γ n ep v) :
    ∀ {s : Sit}, n = Encodable.encode s.st → s.Good x → Plan x γ s (ep.map (told x.cfg x.world)) v := by
  induction h with
  | @last n a ha hd =>
    rintro s rfl hs
    rw [proc_actions] at ha
    obtain ⟨m, o, s', hm, hg, h1, h2, h3⟩ := goes_of_move hs ha
    rw [proc_done ⟨s, hs, rfl⟩ hm, h1, st_done] at hd
    rw [proc_reward (I := Known' x) ⟨s, hs, rfl⟩ hm, List.map_singleton, h3]
    exact .last hg (by simpa using hd)
  | @step n a l r ha hd _ ih =>
    rintro s rfl hs
    rw [proc_actions] at ha
    obtain ⟨m, o, s', hm, hg, h1, h2, h3⟩ := goes_of_move hs ha
    rw [proc_done ⟨s, hs, rfl⟩ hm, h1, st_done] at hd
    rw [proc_reward (I := Known' x) ⟨s, hs, rfl⟩ hm, List.map_cons, h3]
    exact .more hg (by simpa using hd) (ih (by rw [proc_next hm, h1]) h2)

/-- Rewards are never positive. -/
structure Costly (x : Task R) : Prop where
  first : ∀ t g, t < x.n → g < x.edges t → x.first t g ≤ 0
  leg : ∀ t g h, t + 1 < x.n → g < x.edges t → h < x.edges (t + 1) → (x.leg (t + 1) g h).reward ≤ 0

theorem goes_nonpos (hx : Costly x) {s s' : Sit} (hs : s.Good x) {o : Option Entry} {r : R} (hg : Goes x s o r s') : r ≤ 0 := by
  cases hg with
  | gap => exact le_refl _
  | first ht hg => exact hx.first _ _ ht hg
  | resume => exact le_refl _
  | on ht hh => exact hx.leg _ _ _ ht hs.2 hh
  | skip ht hh => exact hx.leg _ _ _ ht hs.2 hh

theorem reward_nonpos (hx : Costly x) {s : Sit} (hs : s.Good x) {a : Nat} {m : Move R} (hm : move x.cfg x.world s.st a = .ok m) :
    m.reward ≤ 0 := by
  by_cases ho : a ∈ offer x.cfg s.st
  · obtain ⟨m', o, s', h1, h2, -⟩ := goes_of_move hs ho
    rw [hm] at h1
    cases h1
    exact goes_nonpos hx hs h2
  · match a with
    | 0 => rw [move_gap] at hm; cases hm; exact le_refl _
    | 1 =>
      unfold move at hm
      cases hn : newState x.cfg s.st (action2internal 1) with
      | throws => rw [hn] at hm; cases hm
      | ub => rw [hn] at hm; cases hm
      | ok ns =>
        rw [hn] at hm
        simp only [Outcome.bind_ok] at hm
        unfold rewardOf at hm
        rw [if_neg (by rintro ⟨-, h⟩; exact absurd h (by decide))] at hm
        cases hm
        exact le_refl _
    | h + 2 =>
      exfalso
      rw [st_offer] at ho
      have hno : ¬ (s.pos < x.n ∧ h < x.edges s.pos) := by
        rintro ⟨h1, h2⟩
        rw [if_pos ⟨h1, by omega⟩, List.mem_range'_1] at ho
        omega
      unfold move at hm
      cases hn : newState x.cfg s.st (action2internal (h + 2)) with
      | throws => rw [hn] at hm; cases hm
      | ub => rw [hn] at hm; cases hm
      | ok ns =>
        rw [hn] at hm
        simp only [Outcome.bind_ok] at hm
        unfold rewardOf at hm
        rw [act_pick, if_pos ⟨(st_ok hs).good.ne_nil, by omega⟩, fromBack_1 (st_last s), if_neg (by rw [hasEdge_iff]; exact hno)] at hm
        cases hm

theorem task_nonpos (hx : Costly x) (n a : Nat) : x.proc.reward n a ≤ 0 :=
  proc_nonpos (task_defined x) (by rintro s ⟨t, ht, rfl⟩ a m hm; exact reward_nonpos hx ht hm) n a

theorem viExtract_episode {p : Learn.Proc R} (hne : ∀ s, p.actions s ≠ []) (V : Nat → R) : ∀ (k s : Nat) (l : List (Nat × Nat)),
    Learn.viExtract p γ V k s = some l → ∃ r, Learn.Episode p γ s l r := by
  intro k
  induction k with
  | zero => intro s l h; cases h
  | succ k ih =>
    intro s l h
    obtain ⟨a, ha, h1, -, -⟩ := Learn.bestVal_spec (γ := γ) hne V s
    unfold Learn.viExtract at h
    rw [h1] at h
    simp only at h
    cases hd : p.done s a with
    | true =>
      rw [hd] at h
      simp only [if_true, Option.some.injEq] at h
      subst h
      exact ⟨_, .last ha hd⟩
    | false =>
      rw [hd] at h
      simp only [Bool.false_eq_true, if_false, Option.map_eq_some_iff] at h
      obtain ⟨l', h3, rfl⟩ := h
      obtain ⟨r, hr⟩ := ih _ _ h3
      exact ⟨_, .step ha hd hr⟩

/-! ### C96 -/

/-- **C96.**  Value iteration on the environment comes to an end without undefined behaviour, whatever the rewards: from some
number of rounds on, its result is the policy noted along a plan. -/
theorem values_give_plan (x : Task R) (γ : R) {th : R} (hth : 0 ≤ th) :
    ∃ K, ∀ k, K ≤ k → ∃ l v, x.byValues γ th k = .ok (some (policyOf l)) ∧ Plan x γ (.fresh 0) l v := by
  obtain ⟨K, hK⟩ := Learn.value_iteration_terminates (p := x.proc) (γ := γ)
    (proc_acyclic (by simp [Task.cfg]) (task_defined x)) proc_ne hth (Encodable.encode ([0] : St))
  refine ⟨K, fun k hk => ?_⟩
  obtain ⟨ep, hep⟩ := hK k hk
  have hep' := hep
  unfold Learn.valueIteration at hep'
  rw [Option.bind_eq_some_iff] at hep'
  obtain ⟨S, -, hep'⟩ := hep'
  rw [Option.bind_eq_some_iff] at hep'
  obtain ⟨V, -, hep'⟩ := hep'
  obtain ⟨r, hr⟩ := viExtract_episode proc_ne V _ _ _ hep'
  refine ⟨_, r, ?_, plan_of_episode hr (s := .fresh 0) rfl trivial⟩
  unfold Task.byValues
  rw [valueIteration_refines (by simp [Task.cfg]) (task_defined x), hep]
  rfl

/-- **C96.**  However many rounds are made, nothing is undefined: values are found in the vectors. -/
theorem values_never_undefined (x : Task R) (γ th : R) (k : Nat) : ∃ o, x.byValues γ th k = .ok o := by
  unfold Task.byValues
  rw [valueIteration_refines (by simp [Task.cfg]) (task_defined x)]
  exact ⟨_, rfl⟩

/-- **C96.**  If rewards are never positive, the plan followed by value iteration falls short of any other plan by at most the
(discounted) threshold for each step.  Missing from the full property: rewards of both signs and floating point numbers. -/
theorem values_near_best_partial (hx : Costly x) (hγ : 0 ≤ γ) {th : R} {k : Nat} {pol : List Entry}
    (h : x.byValues γ th k = .ok (some pol)) :
    ∃ l v, pol = policyOf l ∧ Plan x γ (.fresh 0) l v ∧
      ∀ l' v', Plan x γ (.fresh 0) l' v' → v' ≤ v + γ * th * Learn.discounted γ l.length := by
  unfold Task.byValues at h
  rw [valueIteration_refines (by simp [Task.cfg]) (task_defined x)] at h
  simp only [Outcome.ok.injEq, Option.map_eq_some_iff] at h
  obtain ⟨ep, hep, rfl⟩ := h
  obtain ⟨r, h1, h2⟩ := Learn.value_iteration_near_partial (p := x.proc) proc_ne hγ (task_nonpos hx) hep
  refine ⟨_, r, rfl, plan_of_episode h1 (s := .fresh 0) rfl trivial, ?_⟩
  intro l' v' hl'
  obtain ⟨ep', h3, -⟩ := episode_of_plan hl' trivial
  rw [List.length_map]
  exact h2 ep' v' h3

/-- **C96.**  With a zero threshold, no plan is better than the one followed by value iteration. -/
theorem values_best_partial (hx : Costly x) (hγ : 0 ≤ γ) {k : Nat} {pol : List Entry} (h : x.byValues γ 0 k = .ok (some pol)) :
    ∃ l v, pol = policyOf l ∧ Plan x γ (.fresh 0) l v ∧ ∀ l' v', Plan x γ (.fresh 0) l' v' → v' ≤ v := by
  obtain ⟨l, v, h1, h2, h3⟩ := values_near_best_partial hx hγ h
  exact ⟨l, v, h1, h2, fun l' v' hl' => by simpa using h3 l' v' hl'⟩

/-- **C96.**  The same for policy iteration.  Missing: rewards of both signs, positive thresholds. -/
theorem policies_best_partial (hx : Costly x) (hγ : 0 ≤ γ) {k : Nat} {pol : List Entry} (h : x.byPolicies γ 0 k = .ok (some pol)) :
    ∃ l v, pol = policyOf l ∧ Plan x γ (.fresh 0) l v ∧ ∀ l' v', Plan x γ (.fresh 0) l' v' → v' ≤ v := by
  unfold Task.byPolicies at h
  rw [policyIteration_refines (by simp [Task.cfg]) (task_defined x)] at h
  simp only [Outcome.ok.injEq, Option.map_eq_some_iff] at h
  obtain ⟨ep, hep, rfl⟩ := h
  obtain ⟨r, h1, h2⟩ := Learn.policy_iteration_optimal_partial (p := x.proc) proc_ne hγ (task_nonpos hx) hep
  refine ⟨_, r, rfl, plan_of_episode h1 (s := .fresh 0) rfl trivial, ?_⟩
  intro l' v' hl'
  obtain ⟨ep', h3, -⟩ := episode_of_plan hl' trivial
  exact h2 ep' v' h3

/-- **C96.**  Policy iteration comes to an end.  Missing: as above. -/
theorem policies_stop_partial (hx : Costly x) (hγ : 0 ≤ γ) : ∃ K, ∀ k, K ≤ k → ∃ pol, x.byPolicies γ 0 k = .ok (some pol) := by
  obtain ⟨K, hK⟩ := Learn.policy_iteration_terminates_partial (p := x.proc) (γ := γ)
    (proc_acyclic (by simp [Task.cfg]) (task_defined x)) proc_ne hγ (task_nonpos hx) (Encodable.encode ([0] : St))
  refine ⟨K, fun k hk => ?_⟩
  obtain ⟨l, hl⟩ := hK k hk
  refine ⟨policyOf (l.map (told x.cfg x.world)), ?_⟩
  unfold Task.byPolicies
  rw [policyIteration_refines (by simp [Task.cfg]) (task_defined x), hl]
  rfl

/-- **C96.**  The vectors of values and policies of policy iteration are never left. -/
theorem policies_never_undefined (x : Task R) (γ th : R) (k : Nat) : ∃ o, x.byPolicies γ th k = .ok o := by
  unfold Task.byPolicies
  rw [policyIteration_refines (by simp [Task.cfg]) (task_defined x)]
  exact ⟨_, rfl⟩

/-! ### Example: three points with two candidates each -/

/-- From the first candidate of the first point one can only go a long way to the first of the second point; from there on
everything is connected. -/
def demoTask : Task Int where
  n := 3
  edges _ := 2
  skipErrors := true
  first _ g := if g = 0 then -1 else -2
  leg t g h := if t = 1 then (if g = 0 ∧ h = 0 then ⟨-20, false, false, false, true⟩ else ⟨-5, true, false, false, true⟩)
    else ⟨-3 - (h : Int), false, false, false, true⟩

theorem demo_costly : Costly demoTask := by
  refine ⟨fun t g _ _ => ?_, fun t g h _ _ _ => ?_⟩
  · unfold demoTask; simp only; split_ifs <;> omega
  · unfold demoTask; simp only; split_ifs <;> simp

/-- The connection is given up at the second point, since the fine for this is smaller. -/
example : demoTask.byValues 1 0 12 = .ok (some [(0, 0), (0, 0), (1, 0), (2, 0)]) ∧
    demoTask.byPolicies 1 0 12 = .ok (some [(0, 0), (0, 0), (1, 0), (2, 0)]) := by decide +kernel

example : Plan demoTask 1 (.fresh 0) [some (0, 0), none, some (1, 0), some (2, 0)] (-10) ∧
    Plan demoTask 1 (.fresh 0) [some (0, 0), some (1, 0), some (2, 0)] (-24) := by
  have h2 : Goes demoTask (.after 1 0) (some (2, 0)) (-3) (.after 2 0) :=
    .on (x := demoTask) (t := 1) (g := 0) (h := 0) (by decide) (by decide) (fun _ => ⟨rfl, rfl⟩)
  have h0 : Goes demoTask (.fresh 0) (some (0, 0)) (-1) (.after 0 0) := .first (x := demoTask) (t := 0) (g := 0) (by decide) (by decide)
  constructor
  · have h1 : Goes demoTask (.after 0 0) none (-5) (.fresh 1) :=
      .skip (x := demoTask) (t := 0) (g := 0) (h := 1) (by decide) (by decide) rfl (.inl rfl)
    have h3 : Goes demoTask (.fresh 1) (some (1, 0)) (-1) (.after 1 0) := .first (x := demoTask) (t := 1) (g := 0) (by decide) (by decide)
    exact .more h0 (by decide) (.more h1 (by decide) (.more h3 (by decide) (.last h2 (by decide))))
  · have h1 : Goes demoTask (.after 0 0) (some (1, 0)) (-20) (.after 1 0) :=
      .on (x := demoTask) (t := 0) (g := 0) (h := 0) (by decide) (by decide) (fun _ => ⟨rfl, rfl⟩)
    exact .more h0 (by decide) (.more h1 (by decide) (.last h2 (by decide)))

end MM.Decide
