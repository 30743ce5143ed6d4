import Verif.Model.Methods
import Verif.Props.Recorded
import Verif.Props.Unskipped

/-!
# C108: recorded parts of a track, matched by the learners of the decision process
-/

set_option autoImplicit false
set_option linter.unusedSectionVars false

namespace MM.Matcher

open MM.TimeLimit MM.Route

variable {R : Type} [LinearOrder R] [Sub R] [Zero R] {T S Pol P : Type}

/-- Whatever the clock says, all parts but possibly the last one tried are matched as if there were no limit. -/
theorem loop_last (E : Engine T S Pol P) (x : Export P) (ts : List T) : ∀ (k : Collected S Pol P) (c : Clock R), Fresh c →
    k.aborted = false → ∃ pre post tail, ts = pre ++ post ∧ ((matchLoop E x ts k c).aborted = false → post = [] ∧ tail = []) ∧
      (matchLoop E x ts k c).matched = k.matched ++ (routes E x pre ++ tail) ∧
      (tail = [] ∨ ∃ (t : T) (rest : List T) (c' : Clock R), post = t :: rest ∧ Fresh c' ∧
        tail = [stored x (E.result (matchPart E t c').1.1 (matchPart E t c').1.2)]) := by
  induction ts with
  | nil => intro k c _ _; exact ⟨[], [], [], rfl, fun _ => ⟨rfl, rfl⟩, by simp [matchLoop, routes], .inl rfl⟩
  | cons t ts ih =>
    intro k c hc hk
    rw [matchLoop]
    rcases part_cases E t hc with h | ⟨h1, h2⟩
    · rw [if_pos (reached_of h)]
      refine ⟨[], t :: ts, _, rfl, by simp, ?_, .inr ⟨t, ts, c, rfl, hc, rfl⟩⟩
      simp [Collected.add, routes, final_eq]
    · obtain ⟨h3, h4⟩ := reached_fresh h2
      rw [if_neg (by rw [h3]; simp), h1]
      obtain ⟨pre, post, tail, e, ha, hh, ht⟩ := ih (k.add E x (full E t).1 (full E t).2) (matchPart E t c).2.reached.2 h4 hk
      refine ⟨t :: pre, post, tail, by rw [e]; rfl, ha, ?_, ht⟩
      rw [hh]; simp [Collected.add, routes, final_eq]

theorem ask_both (c : Clock R) : c.ask.2.helper.reached = c.ask.1 := by
  unfold Clock.ask updateAndReached reachedMax
  split_ifs <;> simp_all

end MM.Matcher

namespace MM.Pipe

open MM.Line MM.Route MM.Router MM.CandEdge MM.MatchRoute MM.Matcher
open MM.QLearn (Draw)

variable {V P : Type} [DecidableEq V] [DecidableEq P] {skip : Bool}

/-! ### Episodes and the clock -/

theorem calm_episodes (u : QEnv.Setup ℝ) (rnd : Nat → Nat → Draw) (k : Nat) : ∀ (st : QLearn.St ℝ) (e : Env.Env ℝ),
    calm (episodesAsk u rnd k st e) = QEnv.episodesE u rnd (fun _ => false) k st e := by
  induction k with
  | zero => intro st e; rfl
  | succ k ih =>
    intro st e
    rw [episodesAsk, QEnv.episodesE]
    cases QEnv.trainE u (rnd k) u.qc.maxSteps (Env.reset u.ec e).cur st.table 0 (Env.reset u.ec e) with
    | throws => rfl
    | ub => rfl
    | ok r =>
      simp only [stage, calm, Outcome.bind_ok]
      cases QEnv.judgeE u false (QLearn.scored st r.1.1 r.1.2) r.2 with
      | throws => rfl
      | ub => rfl
      | ok x =>
        simp only [Outcome.bind_ok]
        split_ifs
        · rfl
        · exact ih _ _

/-- What is learned is what is learned for some answers of the clock; if the limit was passed, the last answer is yes. -/
theorem exec_episodes (u : QEnv.Setup ℝ) (rnd : Nat → Nat → Draw) (k : Nat) : ∀ (st : QLearn.St ℝ) (e : Env.Env ℝ) (c : Clock ℝ),
    ∃ abort, (exec (episodesAsk u rnd k st e) c).1 = QEnv.episodesE u rnd abort k st e ∧
      ((exec (episodesAsk u rnd k st e) c).2.helper.reached = true → abort 0 = true) := by
  induction k with
  | zero => intro st e c; exact ⟨fun _ => true, rfl, fun _ => rfl⟩
  | succ k ih =>
    intro st e c
    rw [episodesAsk]
    cases ht : QEnv.trainE u (rnd k) u.qc.maxSteps (Env.reset u.ec e).cur st.table 0 (Env.reset u.ec e) with
    | throws => exact ⟨fun _ => true, by rw [QEnv.episodesE, ht]; rfl, fun _ => rfl⟩
    | ub => exact ⟨fun _ => true, by rw [QEnv.episodesE, ht]; rfl, fun _ => rfl⟩
    | ok r =>
      simp only [stage, exec]
      cases hj : QEnv.judgeE u c.ask.1 (QLearn.scored st r.1.1 r.1.2) r.2 with
      | throws =>
        refine ⟨fun _ => c.ask.1, ?_, fun h => ?_⟩
        · rw [QEnv.episodesE, ht, Outcome.bind_ok, hj]; rfl
        · rw [← ask_both]; exact h
      | ub =>
        refine ⟨fun _ => c.ask.1, ?_, fun h => ?_⟩
        · rw [QEnv.episodesE, ht, Outcome.bind_ok, hj]; rfl
        · rw [← ask_both]; exact h
      | ok x =>
        simp only
        by_cases hb : x.1.2 = true
        · simp only [hb, if_true, exec]
          refine ⟨fun _ => c.ask.1, ?_, fun h => ?_⟩
          · rw [QEnv.episodesE, ht, Outcome.bind_ok, hj, Outcome.bind_ok, if_pos hb]
          · rw [← ask_both]; exact h
        · simp only [hb, if_false, Bool.false_eq_true]
          obtain ⟨abort, h1, h2⟩ := ih x.1.1 x.2 c.ask.2
          have hcongr : ∀ (a b : Nat → Bool) (n : Nat), (∀ i, i < n → a i = b i) → ∀ st e,
              QEnv.episodesE u rnd a n st e = QEnv.episodesE u rnd b n st e := by
            intro a b n
            induction n with
            | zero => intro _ _ _; rfl
            | succ n ihn =>
              intro hab st e
              rw [QEnv.episodesE, QEnv.episodesE, hab n (Nat.lt_succ_self n)]
              congr 1
              funext r
              congr 1
              funext y
              rw [ihn fun i hi => hab i (Nat.lt_succ_of_lt hi)]
          refine ⟨fun i => if i = k then c.ask.1 else abort i, ?_, fun h => ?_⟩
          · rw [QEnv.episodesE, ht, Outcome.bind_ok]
            simp only [if_true]
            rw [hj, Outcome.bind_ok, if_neg hb, h1]
            exact hcongr _ _ k (fun i hi => by rw [if_neg (by omega)]) _ _
          · by_cases hk : 0 = k
            · subst hk
              simp only [if_true]
              rw [← ask_both]
              exact h
            · show (if 0 = k then c.ask.1 else abort 0) = true
              rw [if_neg hk]
              exact h2 h

variable [Inhabited P]

theorem calm_returned (cs : Cands P) (m : Asks (Outcome ((QLearn.St ℝ × Bool) × Env.Env ℝ))) :
    calm (returned cs m) = (calm m).map fun x => (cs, x.1.1.policy) := by
  induction m with
  | done o => rfl
  | ask next ih => exact ih false

theorem exec_returned (cs : Cands P) (m : Asks (Outcome ((QLearn.St ℝ × Bool) × Env.Env ℝ))) : ∀ c : Clock ℝ,
    exec (returned cs m) c = ((exec m c).1.map (fun x => (cs, x.1.1.policy)), (exec m c).2) := by
  induction m with
  | done o => intro c; rfl
  | ask next ih => intro c; exact ih c.ask.1 c.ask.2

theorem calm_paired {α β : Type} (b : β) (m : Asks α) : calm (paired b m) = (b, calm m) := by
  induction m with
  | done a => rfl
  | ask next ih => exact ih false

theorem exec_paired {α β : Type} (b : β) (m : Asks α) : ∀ c : Clock ℝ, exec (paired b m) c = ((b, (exec m c).1), (exec m c).2) := by
  induction m with
  | done a => intro c; rfl
  | ask next ih => intro c; exact ih c.ask.1 c.ask.2

/-! ### Plans -/

theorem plan_entries {x : Decide.Task ℝ} {γ : ℝ} {s : Decide.Sit} {l : List (Option Entry)} {v : ℝ} (h : Decide.Plan x γ s l v) :
    ∀ e, some e ∈ l → e.2 < x.edges e.1 := by
  have hg : ∀ {s s' : Decide.Sit} {o : Option Entry} {r : ℝ}, Decide.Goes x s o r s' → ∀ e, some e = o → e.2 < x.edges e.1 := by
    intro s s' o r h e he
    cases h with
    | gap => cases he
    | first _ h => cases he; exact h
    | resume _ h => cases he; exact h
    | on _ h _ => cases he; exact h
    | skip => cases he
  induction h with
  | last h _ => intro e he; exact hg h e (List.mem_singleton.1 he)
  | more h _ _ ih =>
    intro e he
    rcases List.mem_cons.1 he with he | he
    · exact hg h e he
    · exact ih e he

theorem policyOf_mem (l : List (Option Entry)) : ∀ e ∈ Router.policyOf l, some e ∈ l := by
  have key : ∀ (l : List (Option Entry)) (acc : List Entry), ∀ e ∈ l.foldl record acc, e ∈ acc ∨ some e ∈ l := by
    intro l
    induction l with
    | nil => intro acc e he; exact .inl he
    | cons o l ih =>
      intro acc e he
      rcases ih _ e he with h | h
      · cases o with
        | some x =>
          rcases List.mem_append.1 h with h | h
          · exact .inl h
          · rw [List.mem_singleton.1 h]; exact .inr (by simp)
        | none =>
          unfold record at h
          cases hl : acc.getLast? with
          | none => rw [hl] at h; exact .inl h
          | some b =>
            rw [hl] at h
            rcases List.mem_append.1 h with h | h
            · exact .inl h
            · rw [List.mem_singleton.1 h]; exact .inl (List.mem_of_getLast? hl)
      · exact .inr (List.mem_cons_of_mem _ h)
  intro e he
  rcases key l [] e he with h | h
  · simp at h
  · exact h

theorem plan_sound {j : Job V P ℝ ℝ} {pos : V → P} {bounds : (ℝ → Bool) → Prop} (hj : Ready j pos bounds) {f : Weights.Factors} {γ : ℝ}
    {l : List (Option Entry)} {v : ℝ} (hp : Decide.Plan (j.task f skip) γ (.fresh 0) l v) {r : Route P}
    (h : candidatesRoute j.setting (Router.policyOf l) = .ok r) : r = Route.bad ∨ Sound (Held j) r := by
  have hent : ∀ e ∈ Router.policyOf l, (j.entry e).isSome = true := fun e he => entry_some (plan_entries hp e (policyOf_mem l e he))
  refine route_good (fun p hp q hq hpq r hr hv => ?_) h
  obtain ⟨c, hc⟩ := Option.isSome_iff_exists.1 (hent p hp)
  obtain ⟨d, hd⟩ := Option.isSome_iff_exists.1 (hent q hq)
  obtain ⟨r', k1, k2, _⟩ := leg_all hj hc hd hpq
  rw [k1] at hr
  cases hr
  obtain ⟨_, r2, k3, k4⟩ := (k2 hv).1.leg
  rw [k1] at k3
  cases k3
  exact k4.good

/-! ### The methods -/

/-- Settings that can be used: discount and threshold are not negative; policy iteration with threshold zero; for some edges, some attempts. -/
def Method.Usable : Method P → Prop
  | .values γ th _ => 0 ≤ γ ∧ 0 ≤ th
  | .policies γ th _ => 0 ≤ γ ∧ th = 0
  | .learning sort _ _ _ stop => QEnv.Sorts sort ∧ ∀ n, 0 < n → 0 < stop n

/-- How the return of a plan is discounted; for Q-learning sums of rewards count. -/
def Method.discount : Method P → ℝ
  | .values γ _ _ => γ
  | .policies γ _ _ => γ
  | .learning .. => 1

/-- With `n` episodes, if it has episodes. -/
def Method.lasting (m : Method P) (n : Nat) : Method P :=
  match m with
  | .values γ th p => .values γ th p
  | .policies γ th p => .policies γ th p
  | .learning sort lr γ _ stop => .learning sort lr γ n stop

/-- It has a policy to return when it is interrupted. -/
def Method.Anytime : Method P → Prop
  | .learning .. => True
  | _ => False

/-- What is known of the plan that was found: value iteration is within its threshold for each step of the best, policy iteration is best. -/
def Method.Best (m : Method P) (x : Decide.Task ℝ) (l : List (Option Entry)) (v : ℝ) : Prop :=
  match m with
  | .values γ th _ => ∀ l' v', Decide.Plan x γ (.fresh 0) l' v' → v' ≤ v + γ * th * Learn.discounted γ l.length
  | .policies γ _ _ => ∀ l' v', Decide.Plan x γ (.fresh 0) l' v' → v' ≤ v
  | .learning .. => True

/-- A policy written for a plan. -/
def Planned (w : Rig V P ℝ ℝ) (m : Method P) (skip : Bool) (l : List P) (cs : Cands P) (pol : List Entry) : Prop :=
  ∃ pl v, pol = Router.policyOf pl ∧ Decide.Plan ((w.job l cs).task w.factors skip) m.discount (.fresh 0) pl v ∧
    m.Best ((w.job l cs).task w.factors skip) pl v

theorem lasting_planned {w : Rig V P ℝ ℝ} {m : Method P} {N : Nat} {l : List P} {cs : Cands P} {pol : List Entry} :
    Planned w (m.lasting N) skip l cs pol ↔ Planned w m skip l cs pol := by
  cases m <;> exact Iff.rfl

theorem some_edges {j : Job V P ℝ ℝ} {t0 : Nat} (h : Starts j t0) : 0 < edgeCount j.cands := by
  have hm : j.cands.getD t0 [] ∈ j.cands := by
    rw [List.getD_eq_getElem?_getD, List.getElem?_eq_getElem h.lt]
    exact List.getElem_mem _
  have hpos : 0 < (j.cands.getD t0 []).length := List.length_pos_iff.2 h.some
  have := List.single_le_sum (fun x _ => Nat.zero_le x) _ (List.mem_map_of_mem (f := List.length) hm)
  unfold edgeCount
  omega

/-- What Q-learning writes: nothing, or what a plan is written as. -/
theorem learned_planned {j : Job V P ℝ ℝ} {f : Weights.Factors} {sort : List (Nat × ℝ) → List (Nat × ℝ)} (hso : QEnv.Sorts sort)
    {lr γ : ℝ} {episodes stop : Nat} {rnd : Nat → Nat → Draw} {abort : Nat → Bool} {st : QLearn.St ℝ} {brk : Bool} {e : Env.Env ℝ}
    (h : QEnv.runE ((j.task f skip).setup sort lr γ episodes stop) rnd false abort = .ok ((st, brk), e)) :
    st.policy = [] ∨ ∃ pl v, st.policy = Router.policyOf pl ∧ Decide.Plan (j.task f skip) 1 (.fresh 0) pl v := by
  by_cases hpol : st.policy = []
  · exact .inl hpol
  · right
    have hn : 0 < (j.task f skip).n := by
      by_contra hc
      have hz : ((j.task f skip).setup sort lr γ episodes stop).qc.maxSteps = 0 := by
        show 2 * (j.task f skip).n = 0
        omega
      obtain ⟨_, h2⟩ := QEnv.run_sim (by show 2 ≤ 2; omega) hso h
      obtain ⟨w, _, h4, h5⟩ := QLearn.policy_walk h2
      rw [hz] at h4
      have : w = [] := List.eq_nil_of_length_eq_zero (by omega)
      subst this
      exact hpol h5
    obtain ⟨l, v, hl, heq⟩ := QEnv.run_plan hso hn h (.inl hpol)
    exact ⟨l, v, heq, hl⟩

/-- Without limit: what the learner writes with enough rounds. -/
theorem train_calm {w : Rig V P ℝ ℝ} {m : Method P} (hm : m.Usable) {l : List P} {cs : Cands P}
    (hc : Decide.Costly ((w.job l cs).task w.factors skip)) : ∃ K, ∀ n, K ≤ n → ∀ N rnd, ∃ pol,
      calm (({ w with fuel := n } : Rig V P ℝ ℝ).train (m.lasting N) skip rnd l cs) = .ok (cs, pol) ∧
      (pol = [] ∨ Planned w m skip l cs pol) ∧ (K ≤ N → ∀ t0, Starts (w.job l cs) t0 → Planned w m skip l cs pol) := by
  cases m with
  | values γ th p =>
    obtain ⟨K, hK⟩ := Decide.values_give_plan ((w.job l cs).task w.factors skip) γ hm.2
    refine ⟨K, fun n hn N rnd => ?_⟩
    obtain ⟨pl, v, h1, h2⟩ := hK n hn
    obtain ⟨pl', v', h3, h4, h5⟩ := Decide.values_near_best_partial hc hm.1 h1
    have hp : Planned w (.values γ th p) skip l cs (Router.policyOf pl) := ⟨pl', v', h3, h4, h5⟩
    refine ⟨Router.policyOf pl, ?_, .inr hp, fun _ _ _ => hp⟩
    show calm (waits _ _ _) = _
    rw [calm_waits, calm]
    show (ended (((w.job l cs).task w.factors skip).byValues γ th n)).map _ = _
    rw [h1]; rfl
  | policies γ th p =>
    obtain ⟨h0, rfl⟩ := hm
    obtain ⟨K, hK⟩ := Decide.policies_stop_partial hc h0
    refine ⟨K, fun n hn N rnd => ?_⟩
    obtain ⟨pol, h1⟩ := hK n hn
    obtain ⟨pl', v', h3, h4, h5⟩ := Decide.policies_best_partial hc h0 h1
    have hp : Planned w (.policies γ 0 p) skip l cs pol := ⟨pl', v', h3, h4, h5⟩
    refine ⟨pol, ?_, .inr hp, fun _ _ _ => hp⟩
    show calm (waits _ _ _) = _
    rw [calm_waits, calm]
    show (ended (((w.job l cs).task w.factors skip).byPolicies γ 0 n)).map _ = _
    rw [h1]; rfl
  | learning sort lr γ ep stop =>
    obtain ⟨hso, hstop⟩ := hm
    obtain ⟨K, hK⟩ : ∃ K, ∀ t0, Starts (w.job l cs) t0 → ∀ episodes, K ≤ episodes → ∀ rnd abort st brk e,
        QEnv.runE (((w.job l cs).task w.factors skip).setup sort lr γ episodes (stop (edgeCount cs))) rnd false abort = .ok ((st, brk), e) →
        brk = true := by
      by_cases hs : ∃ t0, Starts (w.job l cs) t0
      · obtain ⟨t0, hs⟩ := hs
        have hn : 0 < ((w.job l cs).task w.factors skip).n := Nat.lt_of_le_of_lt (Nat.zero_le _) hs.lt
        obtain ⟨K, hK⟩ := QEnv.run_breaks ((w.job l cs).task w.factors skip) hn (hstop _ (some_edges hs))
        exact ⟨K, fun _ _ episodes hk rnd abort st brk e h => hK sort hso lr γ episodes hk rnd abort st brk e h⟩
      · exact ⟨0, fun t0 h => absurd ⟨t0, h⟩ hs⟩
    refine ⟨K, fun n hn N rnd => ?_⟩
    obtain ⟨⟨⟨st, brk⟩, e⟩, h⟩ := QEnv.run_defined_partial
      (u := ((w.job l cs).task w.factors skip).setup sort lr γ N (stop (edgeCount cs))) rfl hso rnd false (fun _ => false)
    refine ⟨st.policy, ?_, ?_, ?_⟩
    · show calm (returned cs (episodesAsk (((w.job l cs).task w.factors skip).setup sort lr γ N (stop (edgeCount cs))) rnd N
        QLearn.St.init Env.Env.init)) = _
      rw [calm_returned, calm_episodes]
      have : QEnv.episodesE (((w.job l cs).task w.factors skip).setup sort lr γ N (stop (edgeCount cs))) rnd (fun _ => false) N
        QLearn.St.init Env.Env.init = .ok ((st, brk), e) := h
      rw [this]; rfl
    · rcases learned_planned hso h with h1 | ⟨pl, v, h1, h2⟩
      · exact .inl h1
      · exact .inr ⟨pl, v, h1, h2, trivial⟩
    · intro hk t0 hs
      have hn : 0 < ((w.job l cs).task w.factors skip).n := Nat.lt_of_le_of_lt (Nat.zero_le _) hs.lt
      obtain ⟨pl, v, h1, h2⟩ := QEnv.run_plan hso hn h (.inr (.inl (hK t0 hs N hk rnd _ st brk e h)))
      exact ⟨pl, v, h2, h1, trivial⟩

/-- With a limit: the same, nothing, or, if the method has something to return, what was written for another plan. -/
theorem train_exec {w : Rig V P ℝ ℝ} {m : Method P} (hm : m.Usable) {l : List P} {cs : Cands P} (rnd : Nat → Nat → Draw)
    {c : Clock ℝ} (hf : Fresh c) :
    (exec (w.train m skip rnd l cs) c).1 = calm (w.train m skip rnd l cs) ∨ (exec (w.train m skip rnd l cs) c).1 = .ok (cs, []) ∨
      (m.Anytime ∧ ∃ pol, (exec (w.train m skip rnd l cs) c).1 = .ok (cs, pol) ∧ Planned w m skip l cs pol) := by
  cases m with
  | values γ th p =>
    show (exec (waits _ _ (.done _)) c).1 = calm (waits _ _ _) ∨ (exec (waits _ _ (.done _)) c).1 = _ ∨ _
    rw [calm_waits, calm]
    rcases exec_waits (.ok (cs, [])) ((ended (((w.job l cs).task w.factors skip).byValues γ th w.fuel)).map fun p => (cs, p))
      (p cs) c with h | h
    · exact .inr (.inl h)
    · exact .inl h
  | policies γ th p =>
    show (exec (waits _ _ (.done _)) c).1 = calm (waits _ _ _) ∨ (exec (waits _ _ (.done _)) c).1 = _ ∨ _
    rw [calm_waits, calm]
    rcases exec_waits (.ok (cs, [])) ((ended (((w.job l cs).task w.factors skip).byPolicies γ th w.fuel)).map fun p => (cs, p))
      (p cs) c with h | h
    · exact .inr (.inl h)
    · exact .inl h
  | learning sort lr γ ep stop =>
    obtain ⟨hso, _⟩ := hm
    rcases exec_cases (w.train (.learning sort lr γ ep stop) skip rnd l cs) c (.inr hf) with h | h
    · right
      replace h : (exec (returned cs (episodesAsk (((w.job l cs).task w.factors skip).setup sort lr γ ep (stop (edgeCount cs))) rnd ep
        QLearn.St.init Env.Env.init)) c).2.helper.reached = true := h
      show (exec (returned cs (episodesAsk (((w.job l cs).task w.factors skip).setup sort lr γ ep (stop (edgeCount cs))) rnd ep
        QLearn.St.init Env.Env.init)) c).1 = _ ∨ _ ∧ ∃ pol, (exec (returned cs (episodesAsk (((w.job l cs).task w.factors skip).setup
          sort lr γ ep (stop (edgeCount cs))) rnd ep QLearn.St.init Env.Env.init)) c).1 = _ ∧ _
      rw [exec_returned] at h ⊢
      obtain ⟨abort, h1, _⟩ := exec_episodes (((w.job l cs).task w.factors skip).setup sort lr γ ep (stop (edgeCount cs))) rnd ep
        QLearn.St.init Env.Env.init c
      obtain ⟨⟨⟨st, brk⟩, e⟩, h3⟩ := QEnv.run_defined_partial
        (u := ((w.job l cs).task w.factors skip).setup sort lr γ ep (stop (edgeCount cs))) rfl hso rnd false abort
      have h4 : (exec (episodesAsk (((w.job l cs).task w.factors skip).setup sort lr γ ep (stop (edgeCount cs))) rnd ep
        QLearn.St.init Env.Env.init) c).1 = .ok ((st, brk), e) := h1.trans h3
      simp only [h4, Outcome.map_ok]
      rcases learned_planned hso h3 with h5 | ⟨pl, v, h5, h6⟩
      · exact .inl (by rw [h5])
      · exact .inr ⟨trivial, _, rfl, pl, v, h5, h6, trivial⟩
    · exact .inl h.1

/-! ### One part -/

theorem sought_fair {h : Hunt V P ℝ ℝ} {pos : V → P} {fuel : Nat} {E : Nat → List Nat} (hf : Finds h pos fuel E) {cs : Cands P}
    (h2 : Sought h E cs) (habs : ∀ a, 0 ≤ h.env.G.abs a) (hzero : h.env.G.zeroA = 0) (hadd : ∀ a b, h.env.G.addA a b = a + b)
    (turn : ℝ → Bool) (within joins : Bool) (found : V → V → Option (List V)) : Fair (h.job turn within joins found cs) := by
  refine ⟨?_, habs, hzero, hadd, h2.size.symm⟩
  intro xs hxs x hx
  obtain ⟨i, hi, rfl⟩ := List.mem_iff_getElem.1 hxs
  replace hi : i < cs.length := hi
  have hpt : h.track[i]? = some (h.track[i]'(by rw [← h2.size]; exact hi)) := List.getElem?_eq_getElem _
  have hx' : x ∈ cs.getD i [] := by
    rw [List.getD_eq_getElem?_getD, List.getElem?_eq_getElem hi]; exact hx
  rw [(h2.only i _ hpt x hx').1]
  show 0 ≤ h.env.G.len _ _
  by_cases he : h.track[i]'(by rw [← h2.size]; exact hi) = x.2.proj
  · rw [← he, hf.plane.toMetric.self]
  · exact (hf.plane.toMetric.pos _ _ he).le

/-- What the theorems on the decision process need of candidates. -/
structure Dealt (w : Rig V P ℝ ℝ) (bounds : (ℝ → Bool) → Prop) (skip : Bool) (pos : V → P) (l : List P) (cs : Cands P) : Prop where
  ready : Ready (w.job l cs) pos bounds
  fair : Fair (w.job l cs)
  straight : (w.job l cs).joins = true → w.within = false ∧ Straight (w.job l cs).setting (OnEdge (w.job l cs)) (w.job l cs).env.G.len
  gap : NoWideGap (w.job l cs)
  stay : skip = false → (w.job l cs).joins = false

/-- An answer of a search with a bound of some kind is one of a search with a bound of a wider kind. -/
theorem answer_weaken {g : SP.Graph V (Weight ℝ)} {b b' : (ℝ → Bool) → Prop} (h : ∀ x, b x → b' x) {v w : V} {o : Option (List V)}
    (ho : Answer g b v w o) : Answer g b' v w o := by
  cases ho with
  | path e goals s u n p h1 h2 h3 h4 h5 h6 => exact .path e goals s u n p (h _ h1) h2 h3 h4 h5 h6
  | nothing e goals s h1 h2 h3 h4 h5 => exact .nothing e goals s (h _ h1) h2 h3 h4 h5

/-- The match of a prepared line: invalid if there are no candidates, otherwise decided by a plan of which `Method.Best` tells how good it
is.  If errors are skipped, it is the route for a journey (see C97), and if also the searches are without a bound and turns are not
trimmed, that for a tour (also C97): what was given up is cut off or far away.  If errors are not skipped, it is the route for a course. -/
def Handled (w : Rig V P ℝ ℝ) (bounds : (ℝ → Bool) → Prop) (m : Method P) (skip : Bool) (l : List P) (cs : Cands P) (r : Route P) : Prop :=
  ((∀ t, cs.getD t [] = []) ∧ r = Route.bad) ∨ ∃ t0 pl v, Starts (w.job l cs) t0 ∧ m.Best ((w.job l cs).task w.factors skip) pl v ∧
    (skip = true → (∃ runs, Travelled (w.job l cs) w.factors bounds m.discount t0 r runs pl v) ∧
      (w.within = false → (∀ b, bounds b → b = SP.noBound) → ∃ runs, Decided (w.job l cs) w.factors m.discount t0 r runs pl v)) ∧
    (skip = false → ∃ runs, Insisted (w.job l cs) w.factors bounds m.discount t0 r runs pl v)

theorem planned_route {w : Rig V P ℝ ℝ} {bounds : (ℝ → Bool) → Prop} {m : Method P} {pos : V → P} {l : List P} {cs : Cands P}
    (hd : Dealt w bounds skip pos l cs) {pol : List Entry} (hp : Planned w m skip l cs pol) :
    ∃ r, candidatesRoute (w.job l cs).setting pol = .ok r ∧ Handled w bounds m skip l cs r ∧ (r = Route.bad ∨ Sound w.Refers r) := by
  obtain ⟨pl, v, rfl, h1, h2⟩ := hp
  have hs : ∀ r, candidatesRoute (w.job l cs).setting (Router.policyOf pl) = .ok r → r = Route.bad ∨ Sound w.Refers r := fun r hr =>
    (plan_sound hd.ready h1 hr).imp id fun h => sound_weaken h fun x hx => ⟨l, cs, hx⟩
  cases skip with
  | true =>
    obtain ⟨h3, h4⟩ := plan_travelled hd.ready hd.fair.track hd.straight hd.gap h1
    rcases starts_or_none (w.job l cs) with h5 | ⟨t0, h5⟩
    · exact ⟨Route.bad, h3 h5, .inl ⟨h5, rfl⟩, .inl rfl⟩
    · obtain ⟨r, runs, h6, h7⟩ := h4 t0 h5
      refine ⟨r, h6, .inr ⟨t0, pl, v, h5, h2, fun _ => ⟨⟨runs, h7⟩, fun hw hfree => ?_⟩, fun h => by cases h⟩, hs r h6⟩
      obtain ⟨r', runs', k1, k2⟩ := (plan_route ⟨hd.ready.1, hd.ready.2, hd.ready.3, fun a b => answer_weaken hfree (hd.ready.4 a b)⟩ hw
        hd.fair (fun hx => (hd.straight hx).2) hd.gap h1).2 t0 h5
      rw [h6] at k1
      cases k1
      exact ⟨runs', k2⟩
  | false =>
    obtain ⟨h3, h4⟩ := plan_insisted hd.ready (hd.stay rfl) hd.gap h1
    rcases starts_or_none (w.job l cs) with h5 | ⟨t0, h5⟩
    · exact ⟨Route.bad, h3 h5, .inl ⟨h5, rfl⟩, .inl rfl⟩
    · obtain ⟨r, runs, h6, h7⟩ := h4 t0 h5
      exact ⟨r, h6, .inr ⟨t0, pl, v, h5, h2, (fun h => by cases h), fun _ => ⟨runs, h7⟩⟩, hs r h6⟩

/-- The match by a method for given candidates, when time plays no role. -/
noncomputable def Job.matchBy (j : Job V P ℝ ℝ) (f : Weights.Factors) (m : Method P) (skip : Bool) (rounds : Nat) (rnd : Nat → Nat → Draw) :
    Outcome (Route P) :=
  match m with
  | .values γ th _ => (j.byValues f skip γ th rounds).bind fun o => o.elim .ub .ok
  | .policies γ th _ => (j.byPolicies f skip γ th rounds).bind fun o => o.elim .ub .ok
  | .learning sort lr γ episodes stop =>
    j.byLearning f skip sort lr γ episodes (stop (j.cands.map List.length).sum) rnd false (fun _ => false)

/-- What matching a part gives when time plays no role: preparation, candidates, learning and routes. -/
noncomputable def Rig.aloneBy (w : Rig V P ℝ ℝ) (m : Method P) (skip : Bool) (t : List P × (Nat → Nat → Draw)) : Outcome (Route P) :=
  (w.prep.line t.1).bind fun l => (w.sought l).bind fun cs => (w.job l cs).matchBy w.factors m skip w.fuel t.2

theorem route_for {j : Job V P ℝ ℝ} {o : Outcome (Option (List Entry))} {pol : List Entry} (h : ended o = .ok pol) :
    (j.routeFor o).bind (fun o => o.elim .ub .ok) = candidatesRoute j.setting pol := by
  cases o with
  | throws => cases h
  | ub => cases h
  | ok p =>
    cases p with
    | none => cases h
    | some p =>
      cases h
      show ((candidatesRoute j.setting pol).map some).bind _ = _
      cases candidatesRoute j.setting pol <;> rfl

theorem map_pair {cs : Cands P} {pol : List Entry} {o : Outcome (List Entry)} (h : o.map (fun p => (cs, p)) = .ok (cs, pol)) :
    o = .ok pol := by
  cases o with
  | throws => cases h
  | ub => cases h
  | ok p => cases h; rfl

theorem matchBy_train {w : Rig V P ℝ ℝ} {m : Method P} {rnd : Nat → Nat → Draw} {l : List P} {cs : Cands P} {pol : List Entry}
    (h : calm (w.train m skip rnd l cs) = .ok (cs, pol)) :
    (w.job l cs).matchBy w.factors m skip w.fuel rnd = candidatesRoute (w.job l cs).setting pol := by
  cases m with
  | values γ th p =>
    replace h : calm (waits _ _ (.done _)) = _ := h
    rw [calm_waits, calm] at h
    exact route_for (map_pair h)
  | policies γ th p =>
    replace h : calm (waits _ _ (.done _)) = _ := h
    rw [calm_waits, calm] at h
    exact route_for (map_pair h)
  | learning sort lr γ ep stop =>
    replace h : calm (returned cs (episodesAsk (((w.job l cs).task w.factors skip).setup sort lr γ ep (stop (edgeCount cs))) rnd ep
        QLearn.St.init Env.Env.init)) = _ := h
    rw [calm_returned, calm_episodes] at h
    have e : QEnv.runE (((w.job l cs).task w.factors skip).setup sort lr γ ep (stop (edgeCount cs))) rnd false (fun _ => false) =
      QEnv.episodesE (((w.job l cs).task w.factors skip).setup sort lr γ ep (stop (edgeCount cs))) rnd (fun _ => false) ep
        QLearn.St.init Env.Env.init := rfl
    rw [← e] at h
    show Job.byLearning _ _ _ _ _ _ _ _ _ _ _ = _
    unfold Job.byLearning
    show (QEnv.runE (((w.job l cs).task w.factors skip).setup sort lr γ ep (stop (edgeCount cs))) rnd false (fun _ => false)).bind _ = _
    cases hr : QEnv.runE (((w.job l cs).task w.factors skip).setup sort lr γ ep (stop (edgeCount cs))) rnd false (fun _ => false) with
    | throws => rw [hr] at h; cases h
    | ub => rw [hr] at h; cases h
    | ok x =>
      rw [hr] at h
      cases h
      rfl

theorem calm_setBy (w : Rig V P ℝ ℝ) (t : List P) : calm (w.setBy t) = w.prep.line t := by
  unfold Rig.setBy Prep.line
  cases w.prep.first t with
  | throws => rfl
  | ub => rfl
  | ok a =>
    simp only [stage, calm_waits, Outcome.bind_ok]
    cases w.prep.second a with
    | throws => rfl
    | ub => rfl
    | ok b => simp only [calm_waits, Outcome.bind_ok, calm]

theorem resultBy_none (w : Rig V P ℝ ℝ) (s : (Nat → Nat → Draw) × Outcome (List P)) (cs : Cands P) :
    w.resultBy s (.ok (cs, [])) = Route.bad := by
  unfold Rig.resultBy
  cases s.2 with
  | ok l => simp only [empty_bad]
  | throws => rfl
  | ub => rfl

theorem exec_waits_next {α : Type} (stop : α) (n : Nat) (next : Asks α) : ∀ c : Clock ℝ, Fresh c →
    (exec (waits stop n next) c).1 = stop ∨ ∃ c' : Clock ℝ, Fresh c' ∧ (exec (waits stop n next) c).1 = (exec next c').1 := by
  induction n with
  | zero => intro c hc; exact .inr ⟨c, hc, rfl⟩
  | succ n ih =>
    intro c hc
    rw [waits, exec]
    cases ha : c.ask.1 with
    | true => exact .inl rfl
    | false => simpa using ih c.ask.2 (ask_false ha).2

theorem part_by {w : Rig V P ℝ ℝ} {bounds : (ℝ → Bool) → Prop} {m : Method P} (hm : m.Usable) {pos : V → P} {t : List P × (Nat → Nat → Draw)}
    {l : List P} (hl : w.prep.line t.1 = .ok l) {cs : Cands P} (hs : w.sought l = .ok cs) (hd : Dealt w bounds skip pos l cs) {pol : List Entry}
    (hc : calm (w.train m skip t.2 l cs) = .ok (cs, pol)) {r : Route P} (hr : candidatesRoute (w.job l cs).setting pol = .ok r) :
    w.resultBy (full (w.engineBy m skip) t).1 (full (w.engineBy m skip) t).2 = r ∧
    ∀ (c : Clock ℝ) (q : Route P), Fresh c → q = w.resultBy (matchPart (w.engineBy m skip) t c).1.1 (matchPart (w.engineBy m skip) t c).1.2 →
      q = Route.bad ∨ q = r ∨ (m.Anytime ∧ Handled w bounds m skip l cs q ∧ (q = Route.bad ∨ Sound w.Refers q)) := by
  have hset : calm ((w.engineBy m skip).set t) = (t.2, .ok l) := by
    show calm (paired t.2 (w.setBy t.1)) = _
    rw [calm_paired, calm_setBy, hl]
  have hres : ∀ pol' r', candidatesRoute (w.job l cs).setting pol' = .ok r' → w.resultBy (t.2, .ok l) (.ok (cs, pol')) = r' := by
    intro pol' r' h
    unfold Rig.resultBy
    simp only [h]
  constructor
  · unfold full
    rw [hset]
    show w.resultBy _ (calm (w.learnBy m skip (t.2, .ok l))) = r
    rw [Rig.learnBy, calm_waits, hs, stage, calm_waits, calm_waits, hc]
    exact hres _ _ hr
  · intro c q hf hq
    subst hq
    unfold matchPart
    split_ifs with ha
    · exact .inl (resultBy_none w _ _)
    · rcases exec_cases ((w.engineBy m skip).set t) c (.inr hf) with h | ⟨h1, h2⟩
      · exact absurd (ask_reached h) ha
      · have ha' : (exec ((w.engineBy m skip).set t) c).2.ask.1 = false := by simpa using ha
        have hf' := (ask_false ha').2
        generalize (exec ((w.engineBy m skip).set t) c).2.ask.2 = d at hf'
        rw [h1, hset]
        show w.resultBy _ (exec (w.learnBy m skip (t.2, .ok l)) d).1 = _ ∨ w.resultBy _ (exec (w.learnBy m skip (t.2, .ok l)) d).1 = _ ∨ _ ∧
          Handled w bounds m skip l cs (w.resultBy _ (exec (w.learnBy m skip (t.2, .ok l)) d).1) ∧
          (w.resultBy _ (exec (w.learnBy m skip (t.2, .ok l)) d).1 = _ ∨ Sound w.Refers (w.resultBy _ (exec (w.learnBy m skip (t.2, .ok l)) d).1))
        rw [Rig.learnBy, hs, stage]
        rcases exec_waits_next (.ok ([], [])) l.length
          (waits (.ok ([], [])) (w.pauses cs.length) (waits (.ok (cs, [])) 1 (w.train m skip t.2 l cs))) d hf' with h | ⟨d'', hd'', h⟩
        · rw [h]; exact .inl (resultBy_none w _ _)
        rw [h]
        rcases exec_waits_next (.ok ([], [])) (w.pauses cs.length) (waits (.ok (cs, [])) 1 (w.train m skip t.2 l cs)) d'' hd'' with
          h | ⟨d', hd', h⟩
        · rw [h]; exact .inl (resultBy_none w _ _)
        · rw [h]
          rcases exec_waits_next (.ok (cs, [])) 1 (w.train m skip t.2 l cs) d' hd' with h | ⟨e, he, h⟩
          · rw [h]; exact .inl (resultBy_none w _ _)
          · rw [h]
            rcases train_exec hm t.2 he (w := w) (l := l) (cs := cs) with h | h | ⟨hm', pol', h, hp⟩
            · rw [h, hc]; exact .inr (.inl (hres _ _ hr))
            · rw [h]; exact .inl (resultBy_none w _ _)
            · obtain ⟨r', k1, k2, k3⟩ := planned_route hd hp
              rw [h, hres _ _ k1]
              exact .inr (.inr ⟨hm', k2, k3⟩)

/-! ### The track -/

theorem lasting_usable {m : Method P} (N : Nat) (h : m.Usable) : (m.lasting N).Usable := by
  cases m <;> exact h

theorem lasting_handled {w : Rig V P ℝ ℝ} {bounds : (ℝ → Bool) → Prop} {m : Method P} {N : Nat} {l : List P} {cs : Cands P} {r : Route P} :
    Handled w bounds (m.lasting N) skip l cs r ↔ Handled w bounds m skip l cs r := by
  cases m <;> exact Iff.rfl

theorem lasting_anytime {m : Method P} {N : Nat} : (m.lasting N).Anytime ↔ m.Anytime := by
  cases m <;> exact Iff.rfl

/-- Among the candidates found for the part there is no wide gap, however many rounds the search has. -/
def Rig.Gapless (w : Rig V P ℝ ℝ) (t : List P) : Prop :=
  ∀ l, w.prep.line t = .ok l → ∀ fuel cs, (w.on l).candidates fuel = some (.ok cs) → NoWideGap (w.job l cs)

/-- A part and its match when time plays no role: the line `l` was drawn from it, `cs` are the candidates found. -/
structure Dealing (w : Rig V P ℝ ℝ) (bounds : (ℝ → Bool) → Prop) (m : Method P) (skip : Bool) (pos : V → P)
    (t : List P × (Nat → Nat → Draw)) (l : List P) (cs : Cands P)
    (r : Route P) : Prop where
  line : w.prep.line t.1 = .ok l
  drawn : Drawn w.prep t.1 l
  sought : w.sought l = .ok cs
  spots : ∃ fuel E, Finds (w.on l) pos fuel E ∧ Sought (w.on l) E cs
  alone : w.aloneBy m skip t = .ok r
  found : r = Route.bad ∨ Handled w bounds m skip l cs r
  sound : r = Route.bad ∨ Sound w.Refers r

theorem part_dealt {w : Rig V P ℝ ℝ} (hs : w.prep.Sane) {bounds : (ℝ → Bool) → Prop}
    (hfound : ∀ a b, Answer (w.hunt.net.graph w.hunt.env.G) bounds a b (w.found a b))
    (heven : w.joins = true → skip = true ∧ w.within = false ∧ w.hunt.Even w.turn) (habs : ∀ a, 0 ≤ w.hunt.env.G.abs a) (hzero : w.hunt.env.G.zeroA = 0)
    (hadd : ∀ a b, w.hunt.env.G.addA a b = a + b) (hfo : Weights.FactorsOk w.factors) {m : Method P} (hm : m.Usable) {pos : V → P}
    {t : List P} (hf : w.Searches pos t) (hg : w.Gapless t) : ∃ K, ∀ n, K ≤ n → ∀ N rnd, ∃ l cs pol r,
      Dealing ({ w with fuel := n } : Rig V P ℝ ℝ) bounds (m.lasting N) skip pos (t, rnd) l cs r ∧ Dealt w bounds skip pos l cs ∧
      calm (({ w with fuel := n } : Rig V P ℝ ℝ).train (m.lasting N) skip rnd l cs) = .ok (cs, pol) ∧
      candidatesRoute (w.job l cs).setting pol = .ok r ∧ (K ≤ N → Handled w bounds m skip l cs r) := by
  obtain ⟨l, h1, h2⟩ := prepared_drawn hs t
  obtain ⟨fuel, E, h3⟩ := hf l h1
  obtain ⟨cs, h4, h5, h6⟩ := sought_spots h3
  have hd : Dealt w bounds skip pos l cs := ⟨⟨h3.plane, h3.laid, h6, hfound⟩, sought_fair h3 h5 habs hzero hadd _ _ _ _, fun hx => (heven hx).2,
    hg l h1 fuel cs h4, fun hk => by
      by_contra hx
      have := (heven (Bool.of_not_eq_false hx)).1
      rw [hk] at this; cases this⟩
  obtain ⟨K, hK⟩ := train_calm hm (task_costly h3.plane.toMetric hd.fair hfo skip) (w := w) (l := l) (cs := cs)
  refine ⟨K + fuel, fun n hn N rnd => ?_⟩
  obtain ⟨pol, k1, k2, k3⟩ := hK n (by omega) N rnd
  have hs : ({ w with fuel := n } : Rig V P ℝ ℝ).sought l = .ok cs := by
    show ((w.on l).candidates n).getD .ub = _
    rw [candidates_stable (by omega) h4]; rfl
  have hmb := matchBy_train k1
  have fin : ∀ r, candidatesRoute (w.job l cs).setting pol = .ok r → (r = Route.bad ∨ Handled w bounds m skip l cs r) →
      (r = Route.bad ∨ Sound w.Refers r) →
      Dealing ({ w with fuel := n } : Rig V P ℝ ℝ) bounds (m.lasting N) skip pos (t, rnd) l cs r := by
    intro r hr h7 h8
    refine ⟨h1, h2, hs, ⟨fuel, E, h3, h5⟩, ?_, h7.imp id lasting_handled.2, h8⟩
    unfold Rig.aloneBy
    simp only [h1, Outcome.bind_ok, hs]
    exact hmb.trans hr
  rcases k2 with rfl | k2
  · refine ⟨l, cs, [], Route.bad, fin _ (empty_bad _) (.inl rfl) (.inl rfl), hd, k1, empty_bad _, fun hN => ?_⟩
    rcases starts_or_none (w.job l cs) with h7 | ⟨t0, h7⟩
    · exact .inl ⟨h7, rfl⟩
    · obtain ⟨r, h8, h9, _⟩ := planned_route hd (k3 (by omega) t0 h7)
      rw [empty_bad] at h8
      cases h8
      exact h9
  · obtain ⟨r, h8, h9, h10⟩ := planned_route hd k2
    exact ⟨l, cs, pol, r, fin r h8 (.inr h9) h10, hd, k1, h8, fun _ => h9⟩

/-- **C108, match.**  Recorded parts of a track are matched by value iteration, policy iteration or Q-learning; errors are skipped
or not, routes are searched with any bounds, and if turns are trimmed or errors are not skipped, joints are not removed.  Each part can be prepared; with enough rounds its candidates are found and it has one
match on its own (`alone`): with enough episodes, if the method has episodes, that is the route for a journey or course of its
candidates (`Handled`), whatever is drawn, and with fewer it is that or invalid.  Whatever the clock says, the whole is defined, refers to living lines only, and is
the lines of the matches of the first parts in order, and then of at most one more route: that is invalid, or the match of the next part, or,
only with Q-learning, the route for another one of it.  Parts are left out only if the match is marked as aborted, and it is only if
the clock passed the limit.
Missing: as in C97 and C106; results as whole edges (C69, C79). -/
theorem methods_partial {w : Rig V P ℝ ℝ} (hs : w.prep.Sane) {bounds : (ℝ → Bool) → Prop}
    (hfound : ∀ a b, Answer (w.hunt.net.graph w.hunt.env.G) bounds a b (w.found a b))
    (heven : w.joins = true → skip = true ∧ w.within = false ∧ w.hunt.Even w.turn) (habs : ∀ a, 0 ≤ w.hunt.env.G.abs a) (hzero : w.hunt.env.G.zeroA = 0)
    (hadd : ∀ a b, w.hunt.env.G.addA a b = a + b) (hfo : Weights.FactorsOk w.factors) {m : Method P} (hm : m.Usable) {pos : V → P}
    {ts : List (List P × (Nat → Nat → Draw))} (hf : ∀ t ∈ ts, w.Searches pos t.1 ∧ w.Gapless t.1) {x : Export P} (hx : x.edges = false) :
    ∃ K, ∀ n, K ≤ n → ∀ N, ∃ alone : List P × (Nat → Nat → Draw) → Route P,
      (∀ t ∈ ts, ∃ l cs, Dealing ({ w with fuel := n } : Rig V P ℝ ℝ) bounds (m.lasting N) skip pos t l cs (alone t) ∧
        (K ≤ N → Handled w bounds m skip l cs (alone t))) ∧
      ∀ (max : ℝ) (reading : Nat → ℝ) (next : Nat), ∃ k pre post tail r,
        k = matchTrack (({ w with fuel := n } : Rig V P ℝ ℝ).engineBy (m.lasting N) skip) x max reading ts ∧ ts = pre ++ post ∧
        (k.aborted = false → post = [] ∧ tail = []) ∧ (k.aborted = true → 0 < max ∧ ∃ n, max ≤ reading n - reading 0) ∧
        k.matched = pre.map alone ++ tail ∧
        (tail = [] ∨ ∃ t rest q, post = t :: rest ∧ tail = [q] ∧ (q = Route.bad ∨ q = alone t ∨
          (m.Anytime ∧ ∃ l cs, w.prep.line t.1 = .ok l ∧ ({ w with fuel := n } : Rig V P ℝ ℝ).sought l = .ok cs ∧ Handled w bounds m skip l cs q))) ∧
        matchRoute next k.matched = .ok r ∧ (r.invalid = true ↔ ∀ q ∈ pre.map alone ++ tail, q.invalid = true) ∧
        (∀ y ∈ r.refs, y ∈ r.own ∨ w.Refers y) ∧ r.lines = ((pre.map alone ++ tail).filter moves).flatMap Route.lines := by
  have hK : ∃ K, ∀ t ∈ ts, ∀ n, K ≤ n → ∀ N rnd, ∃ l cs pol r,
      Dealing ({ w with fuel := n } : Rig V P ℝ ℝ) bounds (m.lasting N) skip pos (t.1, rnd) l cs r ∧ Dealt w bounds skip pos l cs ∧
      calm (({ w with fuel := n } : Rig V P ℝ ℝ).train (m.lasting N) skip rnd l cs) = .ok (cs, pol) ∧
      candidatesRoute (w.job l cs).setting pol = .ok r ∧ (K ≤ N → Handled w bounds m skip l cs r) := by
    induction ts with
    | nil => exact ⟨0, by simp⟩
    | cons u us ih =>
      obtain ⟨K1, h1⟩ := ih fun t ht => hf t (List.mem_cons_of_mem _ ht)
      obtain ⟨hu1, hu2⟩ := hf u (by simp)
      obtain ⟨K2, h2⟩ := part_dealt hs hfound heven habs hzero hadd hfo hm hu1 hu2
      refine ⟨K1 + K2, fun t ht n hn N rnd => ?_⟩
      rcases List.mem_cons.1 ht with rfl | ht
      · obtain ⟨l, cs, pol, r, a1, a2, a3, a4, a5⟩ := h2 n (by omega) N rnd
        exact ⟨l, cs, pol, r, a1, a2, a3, a4, fun h => a5 (by omega)⟩
      · obtain ⟨l, cs, pol, r, a1, a2, a3, a4, a5⟩ := h1 t ht n (by omega) N rnd
        exact ⟨l, cs, pol, r, a1, a2, a3, a4, fun h => a5 (by omega)⟩
  obtain ⟨K, hK⟩ := hK
  refine ⟨K, fun n hn N => ?_⟩
  have hone : ∀ t : List P × (Nat → Nat → Draw), ∃ r, t ∈ ts → ∃ l cs pol,
      Dealing ({ w with fuel := n } : Rig V P ℝ ℝ) bounds (m.lasting N) skip pos t l cs r ∧ Dealt w bounds skip pos l cs ∧
      calm (({ w with fuel := n } : Rig V P ℝ ℝ).train (m.lasting N) skip t.2 l cs) = .ok (cs, pol) ∧
      candidatesRoute (w.job l cs).setting pol = .ok r ∧ (K ≤ N → Handled w bounds m skip l cs r) := by
    intro t
    by_cases ht : t ∈ ts
    · obtain ⟨l, cs, pol, r, h⟩ := hK t ht n hn N t.2
      exact ⟨r, fun _ => ⟨l, cs, pol, h⟩⟩
    · exact ⟨Route.bad, fun h => absurd h ht⟩
  choose alone ha using hone
  refine ⟨alone, fun t ht => ?_, fun max reading next => ?_⟩
  · obtain ⟨l, cs, _, h1, _, _, _, h2⟩ := ha t ht
    exact ⟨l, cs, h1, h2⟩
  · have hst : ∀ r, stored x r = r := fun r => by unfold stored; rw [hx]
    obtain ⟨pre, post, tail, h1, h2, h3, h4⟩ := loop_last (({ w with fuel := n } : Rig V P ℝ ℝ).engineBy (m.lasting N) skip) x ts
      Collected.none _ (start_fresh max reading) rfl
    have hpart : ∀ t ∈ ts, ({ w with fuel := n } : Rig V P ℝ ℝ).resultBy
        (full (({ w with fuel := n } : Rig V P ℝ ℝ).engineBy (m.lasting N) skip) t).1
        (full (({ w with fuel := n } : Rig V P ℝ ℝ).engineBy (m.lasting N) skip) t).2 = alone t ∧ ∀ (c : Clock ℝ) (q : Route P), Fresh c →
        q = ({ w with fuel := n } : Rig V P ℝ ℝ).resultBy (matchPart (({ w with fuel := n } : Rig V P ℝ ℝ).engineBy (m.lasting N) skip) t c).1.1
          (matchPart (({ w with fuel := n } : Rig V P ℝ ℝ).engineBy (m.lasting N) skip) t c).1.2 →
        (q = Route.bad ∨ q = alone t ∨ (m.Anytime ∧ ∃ l cs, w.prep.line t.1 = .ok l ∧
          ({ w with fuel := n } : Rig V P ℝ ℝ).sought l = .ok cs ∧ Handled w bounds m skip l cs q)) ∧ (q = Route.bad ∨ Sound w.Refers q) := by
      intro t ht
      obtain ⟨l, cs, pol, a1, a2, a3, a4, _⟩ := ha t ht
      obtain ⟨b1, b2⟩ := part_by (w := { w with fuel := n }) (lasting_usable N hm) a1.line a1.sought ⟨a2.ready, a2.fair, a2.straight, a2.gap, a2.stay⟩ a3 a4
      refine ⟨b1, fun c q hc hq => ?_⟩
      rcases b2 c q hc hq with b | b | ⟨b3, b4, b5⟩
      · exact ⟨.inl b, .inl b⟩
      · exact ⟨.inr (.inl b), by rw [b]; exact a1.sound⟩
      · exact ⟨.inr (.inr ⟨lasting_anytime.1 b3, l, cs, a1.line, a1.sought, lasting_handled.1 b4⟩), b5⟩
    have hr : routes (({ w with fuel := n } : Rig V P ℝ ℝ).engineBy (m.lasting N) skip) x pre = pre.map alone := by
      unfold routes
      refine List.map_congr_left fun t ht => ?_
      rw [hst]
      exact (hpart t (by rw [h1]; exact List.mem_append_left _ ht)).1
    rw [hr] at h3
    have htail : (tail = [] ∨ ∃ t rest q, post = t :: rest ∧ tail = [q] ∧ (q = Route.bad ∨ q = alone t ∨
        (m.Anytime ∧ ∃ l cs, w.prep.line t.1 = .ok l ∧ ({ w with fuel := n } : Rig V P ℝ ℝ).sought l = .ok cs ∧ Handled w bounds m skip l cs q))) ∧
        ∀ q ∈ tail, q = Route.bad ∨ Sound w.Refers q := by
      rcases h4 with rfl | ⟨t, rest, c, h5, h6, h7⟩
      · exact ⟨.inl rfl, by simp⟩
      · obtain ⟨k1, k2⟩ := (hpart t (by rw [h1, h5]; simp)).2 c _ h6 rfl
        rw [hst] at h7
        refine ⟨.inr ⟨t, rest, _, h5, h7, k1⟩, fun q hq => ?_⟩
        rw [h7] at hq
        rw [List.mem_singleton.1 hq]
        exact k2
    have h8 : (matchTrack (({ w with fuel := n } : Rig V P ℝ ℝ).engineBy (m.lasting N) skip) x max reading ts).matched = pre.map alone ++ tail := by
      rw [matchTrack, h3]; simp [Collected.none]
    obtain ⟨r, k1, k2, k3, k4⟩ := matched_lines next (net := w.Refers) (rs := pre.map alone ++ tail) (tail := []) (by
      intro r hr
      rcases List.mem_append.1 hr with hr | hr
      · obtain ⟨t, ht, rfl⟩ := List.mem_map.1 hr
        obtain ⟨l, cs, _, a1, _⟩ := ha t (by rw [h1]; exact List.mem_append_left _ ht)
        exact a1.sound
      · exact htail.2 r hr) (.inl rfl)
    rw [List.append_nil] at k1
    exact ⟨_, pre, post, tail, r, rfl, h1, h2, aborted_late _ _ _ _ _, h8, htail.1, by rw [h8]; exact k1, k2, k3, k4⟩

/-- **C108, parts do not influence each other.**  Without a time limit, the lines of the match of some parts and some more are those of the match
of the former and then those of the match of the latter, if the same numbers are drawn for each part.  Missing: as in `methods_partial`. -/
theorem methods_apart_partial {w : Rig V P ℝ ℝ} (hs : w.prep.Sane) {bounds : (ℝ → Bool) → Prop}
    (hfound : ∀ a b, Answer (w.hunt.net.graph w.hunt.env.G) bounds a b (w.found a b))
    (heven : w.joins = true → skip = true ∧ w.within = false ∧ w.hunt.Even w.turn) (habs : ∀ a, 0 ≤ w.hunt.env.G.abs a) (hzero : w.hunt.env.G.zeroA = 0)
    (hadd : ∀ a b, w.hunt.env.G.addA a b = a + b) (hfo : Weights.FactorsOk w.factors) {m : Method P} (hm : m.Usable) {pos : V → P}
    {ts us : List (List P × (Nat → Nat → Draw))} (ht : ∀ t ∈ ts, w.Searches pos t.1 ∧ w.Gapless t.1)
    (hu : ∀ t ∈ us, w.Searches pos t.1 ∧ w.Gapless t.1) {x : Export P} (hx : x.edges = false) {max : ℝ} (hmax : max ≤ 0)
    (reading : Nat → ℝ) (next : Nat) :
    ∃ K, ∀ n, K ≤ n → ∀ N, ∃ a b r,
      matchRoute next (matchTrack (({ w with fuel := n } : Rig V P ℝ ℝ).engineBy (m.lasting N) skip) x max reading ts).matched = .ok a ∧
      matchRoute next (matchTrack (({ w with fuel := n } : Rig V P ℝ ℝ).engineBy (m.lasting N) skip) x max reading us).matched = .ok b ∧
      matchRoute next (matchTrack (({ w with fuel := n } : Rig V P ℝ ℝ).engineBy (m.lasting N) skip) x max reading (ts ++ us)).matched = .ok r ∧
      r.lines = a.lines ++ b.lines := by
  obtain ⟨K1, h1⟩ := methods_partial hs hfound heven habs hzero hadd hfo hm ht hx
  obtain ⟨K2, h2⟩ := methods_partial hs hfound heven habs hzero hadd hfo hm hu hx
  obtain ⟨K3, h3⟩ := methods_partial hs hfound heven habs hzero hadd hfo hm (ts := ts ++ us)
    (fun t h => (List.mem_append.1 h).elim (ht t) (hu t)) hx
  refine ⟨K1 + K2 + K3, fun n hn N => ?_⟩
  obtain ⟨al1, a1, b1⟩ := h1 n (by omega) N
  obtain ⟨al2, a2, b2⟩ := h2 n (by omega) N
  obtain ⟨al3, a3, b3⟩ := h3 n (by omega) N
  obtain ⟨k1, p1, q1, t1, r1, e1, f1, g1, u1, _, _, m1, _, _, l1⟩ := b1 max reading next
  obtain ⟨k2, p2, q2, t2, r2, e2, f2, g2, u2, _, _, m2, _, _, l2⟩ := b2 max reading next
  obtain ⟨k3, p3, q3, t3, r3, e3, f3, g3, u3, _, _, m3, _, _, l3⟩ := b3 max reading next
  have hno : ∀ b : Bool, (b = true → 0 < max ∧ ∃ n, max ≤ reading n - reading 0) → b = false := by
    intro b hb
    cases b with
    | false => rfl
    | true => exact absurd (hb rfl).1 (not_lt.2 hmax)
  obtain ⟨i1, j1⟩ := g1 (hno _ u1)
  obtain ⟨i2, j2⟩ := g2 (hno _ u2)
  obtain ⟨i3, j3⟩ := g3 (hno _ u3)
  rw [i1, List.append_nil] at f1
  rw [i2, List.append_nil] at f2
  rw [i3, List.append_nil] at f3
  rw [j1, List.append_nil] at l1
  rw [j2, List.append_nil] at l2
  rw [j3, List.append_nil] at l3
  subst e1 e2 e3 f1 f2
  refine ⟨r1, r2, r3, m1, m2, m3, ?_⟩
  have c1 : ts.map al3 = ts.map al1 := List.map_congr_left fun t h => by
    obtain ⟨_, _, k, _⟩ := a3 t (List.mem_append_left _ h)
    obtain ⟨_, _, k', _⟩ := a1 t h
    exact Outcome.ok.inj (k.alone.symm.trans k'.alone)
  have c2 : us.map al3 = us.map al2 := List.map_congr_left fun t h => by
    obtain ⟨_, _, k, _⟩ := a3 t (List.mem_append_right _ h)
    obtain ⟨_, _, k', _⟩ := a2 t h
    exact Outcome.ok.inj (k.alone.symm.trans k'.alone)
  rw [l1, l2, l3, ← f3, List.map_append, c1, c2, List.filter_append, List.flatMap_append]

/-- Segments of a match are pieces of edges in their direction. -/
theorem handled_edges {w : Rig V P ℝ ℝ} (hw : w.within = false) {bounds : (ℝ → Bool) → Prop} {m : Method P} {l : List P} {cs : Cands P} {r : Route P}
    (h : Handled w bounds m skip l cs r) : ∀ y ∈ r.lines, ∀ sg ∈ segs y, sg.1 ≠ sg.2 →
      ∃ e ∈ w.hunt.net.edges, PieceOf w.hunt.env.G e.line sg.1 sg.2 := by
  have key : ∀ (runs : List (List Entry)) (parts : List (List (List P))), r.lines = parts.flatten →
      List.Forall₂ (Stretch (w.job l cs) bounds) runs parts → ∀ y ∈ r.lines, ∀ sg ∈ segs y, sg.1 ≠ sg.2 →
        ∃ e ∈ w.hunt.net.edges, PieceOf w.hunt.env.G e.line sg.1 sg.2 := by
    intro runs parts k2 k3 y hy sg hsg hne
    rw [k2] at hy
    obtain ⟨ls, hls, hy⟩ := List.mem_flatten.1 hy
    obtain ⟨hlen, hget⟩ := List.forall₂_iff_get.1 k3
    obtain ⟨i, hi, rfl⟩ := List.mem_iff_getElem.1 hls
    have hst := hget i (by rw [hlen]; exact hi) hi
    exact hst.onEdges hw y (by simpa using hy) sg hsg hne
  rcases h with ⟨_, rfl⟩ | ⟨t0, pl, v, _, _, h1, h2⟩
  · intro y hy; simp [Route.bad, Route.lines] at hy
  · cases skip with
    | true =>
      obtain ⟨⟨runs, h⟩, _⟩ := h1 rfl
      obtain ⟨parts, k2, k3⟩ := h.lines
      exact key runs parts k2 k3
    | false =>
      obtain ⟨runs, h⟩ := h2 rfl
      obtain ⟨parts, k2, k3⟩ := h.lines
      exact key runs parts k2 k3

/-- Mode CIRCLE: there is no gap if each point of the prepared line has an edge within the upper limit. -/
theorem circle_gapless {w : Rig V P ℝ ℝ} {pos : V → P} {t : List P}
    (h : ∀ l, w.prep.line t = .ok l → Circle (w.on l) pos ∧ ∀ p ∈ l, ∃ x ∈ w.hunt.net.edges, w.hunt.gap p x.line ≤ w.hunt.upper) :
    w.Gapless t := by
  intro l hl fuel cs hcs
  obtain ⟨h1, h2⟩ := h l hl
  obtain ⟨fuel', E, h3, h4⟩ := circle_finds h1
  obtain ⟨cs', h5, h6, _⟩ := sought_spots h3
  have e : cs = cs' := by
    have k1 := candidates_stable (Nat.le_add_right fuel fuel') hcs
    rw [candidates_stable (Nat.le_add_left fuel' fuel) h5] at k1
    exact (Outcome.ok.inj (Option.some.inj k1)).symm
  subst e
  intro i hi h7
  have hi' : i < l.length := by
    have : i + 1 < cs.length := hi
    have hz : cs.length = l.length := h6.size
    omega
  have hp : (w.on l).track[i]? = some l[i] := List.getElem?_eq_getElem hi'
  obtain ⟨x, hx, hg⟩ := h2 l[i] (List.getElem_mem hi')
  obtain ⟨k, hk⟩ := List.mem_iff_getElem?.1 hx
  obtain ⟨_, _, _, _, hsome, _⟩ := h4 i _ hp
  have hne : E i ≠ [] := hsome ⟨k, x, hk, hg⟩
  obtain ⟨e, he⟩ := List.exists_mem_of_ne_nil _ hne
  obtain ⟨d, hd, _⟩ := h6.own i _ hp e he
  replace h7 : (cs.getD i []).length = 0 := h7
  rw [List.eq_nil_of_length_eq_zero h7] at hd
  simp at hd

end MM.Pipe

namespace MM.Prepare

open MM.Line MM.Pipe MM.Matcher MM.MatchRoute
open MM.QLearn (Draw)

variable {P : Type} [DecidableEq P] [Inhabited P] {skip : Bool}

/-- **C108, files.**  On a network prepared from files, each segment of the whole match is a piece of a passage that the files permit, in the
permitted direction, whatever the clock says and whatever is drawn.  Missing: as in `methods_partial`. -/
theorem methods_permitted_partial {f : Osm.Filters} {s : Steps} {es : List (Osm.Element P)} {c : Csr.Csr (Nat × P) (Nat × List P)}
    (hprep : prepare f s es = .ok c) {w : Rig Nat P ℝ ℝ} (hnet : w.hunt.net = opened c) (hs : w.prep.Sane) (hw : w.within = false)
    {bounds : (ℝ → Bool) → Prop}
    (hfound : ∀ a b, Answer (w.hunt.net.graph w.hunt.env.G) bounds a b (w.found a b))
    (heven : w.joins = true → skip = true ∧ w.hunt.Even w.turn) (habs : ∀ a, 0 ≤ w.hunt.env.G.abs a) (hzero : w.hunt.env.G.zeroA = 0)
    (hadd : ∀ a b, w.hunt.env.G.addA a b = a + b) (hfo : Weights.FactorsOk w.factors) {m : Method P} (hm : m.Usable)
    {ts : List (List P × (Nat → Nat → Draw))} (hf : ∀ t ∈ ts, w.Searches (fun v => (nodeAt c v).2) t.1 ∧ w.Gapless t.1) {x : Export P}
    (hx : x.edges = false) :
    ∃ K, ∀ n, K ≤ n → ∀ N (max : ℝ) (reading : Nat → ℝ) (next : Nat), ∃ r,
      matchRoute next (matchTrack (({ w with fuel := n } : Rig Nat P ℝ ℝ).engineBy (m.lasting N) skip) x max reading ts).matched = .ok r ∧
      ∀ l ∈ r.lines, ∀ sg ∈ segs l, sg.1 ≠ sg.2 → OnPassage w.hunt.env.G f es sg.1 sg.2 := by
  obtain ⟨K, hK⟩ := methods_partial hs hfound (fun hx => ⟨(heven hx).1, hw, (heven hx).2⟩) habs hzero hadd hfo hm hf hx
  refine ⟨K, fun n hn N max reading next => ?_⟩
  obtain ⟨alone, h1, h2⟩ := hK n hn N
  obtain ⟨k, pre, post, tail, r, rfl, h3, _, _, _, h6, h4, _, _, h5⟩ := h2 max reading next
  refine ⟨r, h4, fun l hl sg hsg hne => ?_⟩
  rw [h5] at hl
  obtain ⟨q, hq, hlq⟩ := List.mem_flatMap.1 hl
  have hq' := (List.mem_filter.1 hq).1
  have hbad : ∀ q : MM.Route.Route P, l ∈ q.lines → q ≠ MM.Route.Route.bad := by
    intro q hl hb
    rw [hb] at hl; simp [MM.Route.Route.bad, MM.Route.Route.lines] at hl
  have hal : ∀ t ∈ ts, q = alone t → ∃ l' cs, Handled w bounds m skip l' cs q := by
    intro t ht hq
    obtain ⟨l', cs, k1, _⟩ := h1 t ht
    rcases k1.found with k | k
    · exact absurd (hq.trans k) (hbad q hlq)
    · exact ⟨l', cs, by rw [hq]; exact lasting_handled.1 k⟩
  have hh : ∃ l' cs, Handled w bounds m skip l' cs q := by
    rcases List.mem_append.1 hq' with hq' | hq'
    · obtain ⟨t, ht, rfl⟩ := List.mem_map.1 hq'
      exact hal t (by rw [h3]; exact List.mem_append_left _ ht) rfl
    · rcases h6 with rfl | ⟨t, rest, q', h7, rfl, h8⟩
      · simp at hq'
      · rw [← List.mem_singleton.1 hq'] at h8
        rcases h8 with h8 | h8 | ⟨_, l', cs, _, _, h8⟩
        · exact absurd h8 (hbad q hlq)
        · exact hal t (by rw [h3, h7]; simp) h8
        · exact ⟨l', cs, h8⟩
  obtain ⟨l', cs, hh⟩ := hh
  exact onPassage (j := w.job [] []) hprep hnet (handled_edges hw hh l hlq sg hsg hne)

/-! ### The town, recorded in two parts -/

theorem town_line_circle (found : Nat → Nat → Option (List Nat)) {t : List Int} (ht : ∀ p ∈ t, p = 2 ∨ p = 13) (l : List Int)
    (hl : townPrep.line t = .ok l) : Circle ((townRig found).on l) (fun v => (nodeAt townNet v).2) ∧ ∀ p ∈ l, p = 2 ∨ p = 13 := by
  obtain ⟨l', h1, h2⟩ := prepared_drawn townPrep_sane t
  have : l' = l := Outcome.ok.inj (h1.symm.trans hl)
  subst this
  have hmem := h2.subset (by
    intro ps m hm
    cases ps with
    | nil => cases hm
    | cons p ps => cases hm; simp)
  refine ⟨⟨town_circle.plane, town_circle.laid, rfl, town_circle.sorted, town_circle.inside, town_circle.within, town_circle.radius, ?_⟩,
    fun p hp => ht p (hmem p hp)⟩
  intro i p e x hp hx hgap
  rcases ht p (hmem p (List.mem_of_getElem? hp)) with rfl | rfl
  · exact town_circle.clear 0 2 e x rfl hx hgap
  · exact town_circle.clear 1 13 e x rfl hx hgap

theorem town_gapless (found : Nat → Nat → Option (List Nat)) {t : List Int} (ht : ∀ p ∈ t, p = 2 ∨ p = 13) : (townRig found).Gapless t := by
  refine circle_gapless (pos := fun v => (nodeAt townNet v).2) fun l hl => ?_
  obtain ⟨h1, h2⟩ := town_line_circle found ht l hl
  refine ⟨h1, fun p hp => ?_⟩
  rcases h2 p hp with rfl | rfl
  · exact ⟨⟨0, 1, [0, 10]⟩, by simp [townRig, townHunt, opened, townNet], by simp [townRig, townHunt, streetGap]⟩
  · exact ⟨⟨1, 2, [10, 20]⟩, by simp [townRig, townHunt, opened, townNet], by simp [townRig, townHunt, streetGap]⟩

/-- Value iteration, policy iteration and Q-learning with the usual settings. -/
noncomputable def usualMethods : List (Method Int) :=
  [.values 0.99 0.001 List.length, .policies 0.99 0 List.length, .learning sorted 0.8 0.99 0 fun n => n]

theorem usual_usable : ∀ m ∈ usualMethods, m.Usable := by
  intro m hm
  simp only [usualMethods, List.mem_cons, List.not_mem_nil, or_false] at hm
  rcases hm with rfl | rfl | rfl
  · exact ⟨by norm_num, by norm_num⟩
  · exact ⟨by norm_num, rfl⟩
  · exact ⟨sorted_sorts, fun n hn => hn⟩

theorem town_parts (found : Nat → Nat → Option (List Nat)) {ts : List (List Int × (Nat → Nat → Draw))}
    (h : ∀ t ∈ ts, ∀ p ∈ t.1, p = 2 ∨ p = 13) :
    ∀ t ∈ ts, (townRig found).Searches (fun v => (nodeAt townNet v).2) t.1 ∧ (townRig found).Gapless t.1 :=
  fun t ht => ⟨town_searches found (h t ht), town_gapless found (h t ht)⟩

example (rnd rnd' : Nat → Nat → Draw) : ∀ m ∈ usualMethods, ∃ found K, ∀ n, K ≤ n → ∀ N (max : ℝ) (reading : Nat → ℝ), ∃ r,
    matchRoute 100 (matchTrack (({ townRig found with fuel := n } : Rig Nat Int ℝ ℝ).engineBy (m.lasting N) skip) plainExport max reading
      [([2, 2, 13], rnd), ([13, 13], rnd')]).matched = .ok r ∧
    ∀ l ∈ r.lines, ∀ sg ∈ segs l, sg.1 ≠ sg.2 → OnPassage streetGeo Osm.defaults town sg.1 sg.2 := by
  intro m hm
  choose found hfound using prepared_answers townNet streetGeo
  obtain ⟨K, hK⟩ := methods_permitted_partial town_plain (w := townRig found) rfl townPrep_sane rfl hfound (fun h => by cases h)
    (fun a => abs_nonneg _) rfl (fun _ _ => rfl) usual_ok (usual_usable m hm)
    (town_parts found (ts := [([2, 2, 13], rnd), ([13, 13], rnd')]) (by simp)) (x := plainExport) rfl
  exact ⟨found, K, fun n hn N max reading => hK n hn N max reading 100⟩

/-- Some candidates are found for a part with points, and with enough rounds and episodes the match is the route for a tour of them. -/
example (rnd : Nat → Nat → Draw) : ∀ m ∈ usualMethods, ∃ found n l cs r, townPrep.line [2, 13] = .ok l ∧
    ({ townRig found with fuel := n } : Rig Nat Int ℝ ℝ).aloneBy (m.lasting n) skip ([2, 13], rnd) = .ok r ∧ Handled (townRig found) (fun b => b = SP.noBound) m skip l cs r ∧
    cs.getD 0 [] ≠ [] := by
  intro m hm
  choose found hfound using prepared_answers townNet streetGeo
  obtain ⟨K, hK⟩ := methods_partial (w := townRig found) townPrep_sane hfound (fun h => by cases h)
    (fun a => abs_nonneg _) rfl (fun _ _ => rfl) usual_ok (usual_usable m hm)
    (town_parts found (ts := [([2, 13], rnd)]) (by simp)) (x := plainExport) rfl
  obtain ⟨alone, h1, _⟩ := hK K le_rfl K
  obtain ⟨l, cs, h2, h3⟩ := h1 ([2, 13], rnd) (by simp)
  refine ⟨found, K, l, cs, _, h2.line, h2.alone, h3 le_rfl, ?_⟩
  have hl : l = [2, 13] := Outcome.ok.inj (h2.line.symm.trans town_line)
  subst hl
  obtain ⟨fuel, E, h4, h5⟩ := h2.spots
  obtain ⟨fuel', E', h6, h7⟩ := circle_finds (town_line_circle found (t := [2, 13]) (by simp) _ town_line).1
  obtain ⟨cs', h8, h9, _⟩ := sought_spots h6
  have hc : cs = cs' := by
    have k1 := h2.sought
    cases hk : ((townRig found).on [2, 13]).candidates K with
    | none =>
      replace k1 : (((townRig found).on [2, 13]).candidates K).getD .ub = .ok cs := k1
      rw [hk] at k1; cases k1
    | some o =>
      replace k1 : (((townRig found).on [2, 13]).candidates K).getD .ub = .ok cs := k1
      rw [hk] at k1
      have k2 := candidates_stable (Nat.le_add_right K fuel') hk
      rw [candidates_stable (Nat.le_add_left fuel' K) h8] at k2
      cases k2
      exact (Outcome.ok.inj k1).symm
  subst hc
  obtain ⟨_, _, _, _, hsome, _⟩ := h7 0 2 rfl
  have hne : E' 0 ≠ [] := hsome ⟨0, ⟨0, 1, [0, 10]⟩, rfl, by simp [townRig, townHunt, Rig.on, streetGap]⟩
  obtain ⟨e, he⟩ := List.exists_mem_of_ne_nil _ hne
  obtain ⟨d, hd, _⟩ := h9.own 0 2 rfl e he
  intro hnil
  rw [hnil] at hd
  simp at hd

example (rnd rnd' : Nat → Nat → Draw) : ∀ m ∈ usualMethods, ∃ found K, ∀ n, K ≤ n → ∀ N, ∃ a b r,
    matchRoute 100 (matchTrack (({ townRig found with fuel := n } : Rig Nat Int ℝ ℝ).engineBy (m.lasting N) skip) plainExport 0 (fun n => (n : ℝ)) [([2, 2, 13], rnd)]).matched = .ok a ∧
    matchRoute 100 (matchTrack (({ townRig found with fuel := n } : Rig Nat Int ℝ ℝ).engineBy (m.lasting N) skip) plainExport 0 (fun n => (n : ℝ)) [([13, 2], rnd')]).matched = .ok b ∧
    matchRoute 100 (matchTrack (({ townRig found with fuel := n } : Rig Nat Int ℝ ℝ).engineBy (m.lasting N) skip) plainExport 0 (fun n => (n : ℝ)) ([([2, 2, 13], rnd)] ++ [([13, 2], rnd')])).matched = .ok r ∧
    r.lines = a.lines ++ b.lines := by
  intro m hm
  choose found hfound using prepared_answers townNet streetGeo
  obtain ⟨K, hK⟩ := methods_apart_partial (w := townRig found) townPrep_sane hfound (fun h => by cases h)
    (fun a => abs_nonneg _) rfl (fun _ _ => rfl) usual_ok (usual_usable m hm)
    (town_parts found (ts := [([2, 2, 13], rnd)]) (by simp)) (town_parts found (ts := [([13, 2], rnd')]) (by simp)) (x := plainExport) rfl
    (max := 0) le_rfl (fun n => (n : ℝ)) 100
  exact ⟨found, K, hK⟩

/-- Searches up to a distance of 5, turns within edges trimmed. -/
example (rnd : Nat → Nat → Draw) : ∀ m ∈ usualMethods, ∃ found n l cs r, townPrep.line [2, 13] = .ok l ∧
    ({ townRig found with within := true, fuel := n } : Rig Nat Int ℝ ℝ).aloneBy (m.lasting n) skip ([2, 13], rnd) = .ok r ∧
    Handled ({ townRig found with within := true } : Rig Nat Int ℝ ℝ) (fun b => b = upToFive) m skip l cs r := by
  intro m hm
  choose found hfound using prepared_answers_within townNet streetGeo upToFive
  obtain ⟨K, hK⟩ := methods_partial (w := { townRig found with within := true }) townPrep_sane hfound (fun h => by cases h)
    (fun a => abs_nonneg _) rfl (fun _ _ => rfl) usual_ok (usual_usable m hm)
    (ts := [([2, 13], rnd)]) (pos := fun v => (nodeAt townNet v).2) (fun t ht => by
      rw [List.mem_singleton.1 ht]
      exact ⟨town_searches found (t := [2, 13]) (by simp), town_gapless found (t := [2, 13]) (by simp)⟩) (x := plainExport) rfl
  obtain ⟨alone, h1, _⟩ := hK K le_rfl K
  obtain ⟨l, cs, h2, h3⟩ := h1 ([2, 13], rnd) (by simp)
  exact ⟨found, K, l, cs, _, h2.line, h2.alone, h3 le_rfl⟩

end MM.Prepare
