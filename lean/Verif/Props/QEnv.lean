import Verif.Model.QEnv
import Verif.Props.Env
import Verif.Props.QLearn
import Mathlib.Data.List.Sort

/-!
# C105: Q-learning on the environment itself

The environment numbers states and remembers results while the learner runs, and tries all actions of a state before it offers them.
None of that shows: the learner behaves as on a fixed process, and what it returns is an episode of the environment.
-/

set_option autoImplicit false
set_option linter.unusedSectionVars false

namespace MM.QEnv

open MM.Env (Judge Res action2internal internal2action noAction Reach Hist Live Inv Ext Op)
open MM.Learn (qUpdate)
open MM.QLearn (Draw Table best Extract above scored extracted Proc Walk Ends written)
open MM.Router (Entry record policyOf)

variable {R : Type} [CommRing R] [LinearOrder R] [IsStrictOrderedRing R]

/-- `std::sort` with the comparison of single.hpp 263-265: the same elements, none before one with a greater reward. -/
def Sorts (sort : List (Nat × R) → List (Nat × R)) : Prop :=
  ∀ l, (sort l).Perm l ∧ (sort l).Pairwise (fun x y => y.2 ≤ x.2)

/-! ### Histories -/

theorem hist_trans {c : Env.Cfg} {e f g : Env.Env R} (h1 : Hist c e f) (h2 : Hist c f g) : Hist c e g := by
  induction h2 with
  | refl => exact h1
  | snoc op _ hx ih => exact .snoc op ih hx

theorem step_hist {c : Env.Cfg} {e e' : Env.Env R} {a : Nat} {j : Judge R} {r : Res R} (h : Env.step c e a j = .ok (r, e')) :
    Hist c e e' := .snoc (.step a j) .refl (by simp only [Op.exec, h]; rfl)

theorem reach_ext {c : Env.Cfg} (hp : 2 ≤ c.points) {e f : Env.Env R} (h : Reach c e) (hh : Hist c e f) : Ext e f :=
  (Env.hist_live hp (Env.reach_live hp h) hh).2

theorem reach_cur {c : Env.Cfg} (hp : 2 ≤ c.points) {e : Env.Env R} (h : Reach c e) : e.cur < e.states.length := by
  obtain ⟨_, s, hs⟩ := Env.reach_live hp h
  exact (List.getElem?_eq_some_iff.1 hs).1

/-- What a step leaves behind. -/
theorem step_facts {c : Env.Cfg} (hp : 2 ≤ c.points) {e e' : Env.Env R} (h : Reach c e) {a : Nat} {j : Judge R} {r : Res R}
    (hs : Env.step c e a j = .ok (r, e')) : Reach c e' ∧ Ext e e' ∧ e'.entry e.cur a = some r ∧ e'.cur = r.state := by
  obtain ⟨hi, s, hcur⟩ := Env.reach_live hp h
  obtain ⟨_, h2, h3, h4, _⟩ := Env.step_spec hp hi hcur hs
  exact ⟨hist_trans h (step_hist hs), h2, h3, h4⟩

/-- A step that was taken is repeated. -/
theorem step_again {c : Env.Cfg} {e : Env.Env R} {a : Nat} {r : Res R} (h : e.entry e.cur a = some r) (j : Judge R) :
    Env.step c e a j = .ok (r, { e with cur := r.state }) := by
  unfold Env.step
  rw [Env.cached_eq, h]

/-! ### Asking for actions -/

theorem probe_spec {c : Env.Cfg} (hp : 2 ≤ c.points) {J : Env.Env R → Nat → Judge R} (as : List Nat) : ∀ {e e' : Env.Env R}
    {rs : List (Nat × R)}, Reach c e → probe c J e as = .ok (rs, e') →
    Hist c e e' ∧ e'.cur = e.cur ∧ rs.map Prod.fst = as ∧ ∀ x ∈ rs, ∃ r, e'.entry e.cur x.1 = some r ∧ r.reward = x.2 := by
  induction as with
  | nil =>
    intro e e' rs _ h
    simp only [probe, Outcome.ok.injEq, Prod.mk.injEq] at h
    obtain ⟨rfl, rfl⟩ := h
    exact ⟨.refl, rfl, rfl, by simp⟩
  | cons a as ih =>
    intro e e' rs he h
    rw [probe] at h
    cases hs : Env.step c e a (J e a) with
    | throws => rw [hs] at h; simp at h
    | ub => rw [hs] at h; simp at h
    | ok x =>
      obtain ⟨r, e1⟩ := x
      rw [hs, Outcome.bind_ok] at h
      obtain ⟨h1, h2, h3, h4⟩ := step_facts hp he hs
      have hlt : e.cur < e1.states.length := by
        obtain ⟨s, hs'⟩ := (Env.reach_live hp he).cur
        exact (List.getElem?_eq_some_iff.1 (h2.states _ _ hs')).1
      have hgo : Hist c e { e1 with cur := e.cur } := .snoc (.goto e.cur) (step_hist hs) (by simp [Op.exec, hlt])
      cases hq : probe c J { e1 with cur := e.cur } as with
      | throws => rw [hq] at h; simp at h
      | ub => rw [hq] at h; simp at h
      | ok y =>
        rw [hq, Outcome.map_ok] at h
        simp only [Outcome.ok.injEq, Prod.mk.injEq] at h
        obtain ⟨h5, h6⟩ := h
        obtain ⟨g1, g2, g3, g4⟩ := ih (hist_trans he hgo) (rs := y.1) (e' := y.2) hq
        subst h6
        refine ⟨hist_trans hgo g1, g2, by rw [← h5]; simp [g3], ?_⟩
        intro x hx
        rw [← h5] at hx
        rcases List.mem_cons.1 hx with rfl | hx
        · exact ⟨r, (reach_ext hp (hist_trans he hgo) g1).cache _ _ _ h3, rfl⟩
        · exact g4 x hx

/-- The reward remembered for an action. -/
def known (e : Env.Env R) (s a : Nat) : R := match e.entry s a with | some r => r.reward | none => 0

/-- What is offered in a state when all its actions were tried. -/
def order (c : Env.Cfg) (sort : List (Nat × R) → List (Nat × R)) (e : Env.Env R) (s : Nat) : List Nat :=
  match e.states[s]? with
  | none => []
  | some t =>
    match t.getLast? with
    | none => [internal2action noAction]
    | some p =>
      if p < c.n ∧ 0 < c.edges p.toNat then
        (sort ((List.range' Env.special (c.edges p.toNat)).map fun a => (a, known e s a))).map Prod.fst
      else [internal2action noAction]

theorem rewards_eq {f : Nat → R} (rs : List (Nat × R)) (h : ∀ x ∈ rs, f x.1 = x.2) : rs = (rs.map Prod.fst).map fun a => (a, f a) := by
  induction rs with
  | nil => rfl
  | cons x xs ih =>
    rw [List.map_cons, List.map_cons, ← ih (fun y hy => h y (List.mem_cons_of_mem _ hy)), h x (by simp)]

/-- Asking for actions: the state is as before, and every action offered has been tried, unless there are no edges. -/
theorem smart_spec {c : Env.Cfg} (hp : 2 ≤ c.points) {J : Env.Env R → Nat → Judge R} {sort : List (Nat × R) → List (Nat × R)}
    (hso : Sorts sort) {e e' : Env.Env R} {as : List Nat} (he : Reach c e) (h : smart c J sort e = .ok (as, e')) :
    Hist c e e' ∧ e'.cur = e.cur ∧ (∃ bs, Env.actions c e = .ok bs ∧ as.Perm bs) ∧ (∀ f, Ext e' f → order c sort f e.cur = as) ∧
      (as = [0] ∨ ∀ a ∈ as, ∃ r, e'.entry e.cur a = some r) ∧ as.Pairwise (fun a b => known e' e.cur b ≤ known e' e.cur a) := by
  obtain ⟨_, s, hcur⟩ := Env.reach_live hp he
  unfold smart at h
  rw [hcur] at h
  simp only at h
  cases hl : s.getLast? with
  | none =>
    rw [hl] at h
    simp only [Outcome.ok.injEq, Prod.mk.injEq] at h
    obtain ⟨rfl, rfl⟩ := h
    refine ⟨.refl, rfl, ⟨[0], ?_, .refl _⟩, ?_, .inl rfl, List.pairwise_singleton _ _⟩
    · unfold Env.actions
      rw [hcur]
      simp only [hl]
      rfl
    · intro f hf
      unfold order
      rw [hf.states _ _ hcur]
      simp only [hl]
  | some p =>
    rw [hl] at h
    simp only at h
    by_cases hc : p < c.n ∧ 0 < c.edges p.toNat
    · rw [if_pos hc] at h
      cases hq : probe c J e (List.range' Env.special (c.edges p.toNat)) with
      | throws => rw [hq] at h; simp at h
      | ub => rw [hq] at h; simp at h
      | ok y =>
        rw [hq, Outcome.map_ok] at h
        simp only [Outcome.ok.injEq, Prod.mk.injEq] at h
        obtain ⟨h1, h2⟩ := h
        obtain ⟨g1, g2, g3, g4⟩ := probe_spec hp _ (rs := y.1) (e' := y.2) he hq
        subst h2
        have hrew : ∀ f, Ext y.2 f → y.1 = (List.range' Env.special (c.edges p.toNat)).map fun a => (a, known f e.cur a) := by
          intro f hf
          rw [← g3]
          apply rewards_eq
          intro x hx
          obtain ⟨r, k1, k2⟩ := g4 x hx
          unfold known
          rw [hf.cache _ _ _ k1]
          exact k2
        refine ⟨g1, g2, ⟨List.range' Env.special (c.edges p.toNat), ?_, ?_⟩, ?_, .inr ?_, ?_⟩
        · unfold Env.actions
          rw [hcur]
          simp only [hl, if_pos hc]
        · rw [← h1, ← g3]
          exact (hso y.1).1.map _
        · intro f hf
          unfold order
          rw [hf.states _ _ ((reach_ext hp he g1).states _ _ hcur)]
          simp only [hl, if_pos hc]
          rw [← hrew f hf, h1]
        · intro a ha
          rw [← h1] at ha
          obtain ⟨x, hx, rfl⟩ := List.mem_map.1 ha
          obtain ⟨r, k1, _⟩ := g4 x ((hso y.1).1.mem_iff.1 hx)
          exact ⟨r, k1⟩
        · rw [← h1, List.pairwise_map]
          refine (hso y.1).2.imp_of_mem ?_
          intro x z hx hz hxz
          have hk : ∀ x ∈ sort y.1, known y.2 e.cur x.1 = x.2 := by
            intro x hx
            obtain ⟨r, k1, k2⟩ := g4 x ((hso y.1).1.mem_iff.1 hx)
            unfold known
            rw [k1]
            exact k2
          rw [hk x hx, hk z hz]
          exact hxz
    · rw [if_neg hc] at h
      simp only [Outcome.ok.injEq, Prod.mk.injEq] at h
      obtain ⟨rfl, rfl⟩ := h
      refine ⟨.refl, rfl, ⟨[0], ?_, .refl _⟩, ?_, .inl rfl, List.pairwise_singleton _ _⟩
      · unfold Env.actions
        rw [hcur]
        simp only [hl, if_neg hc]
        rfl
      · intro f hf
        unfold order
        rw [hf.states _ _ hcur]
        simp only [hl, if_neg hc]

/-- **C105, order.**  Asking for actions gives the same actions as without `intelligent_action`, the environment is in the same state
as before, and the actions come in the order of the rewards that later steps with them give, the greatest first. -/
theorem offered_order {c : Env.Cfg} (hp : 2 ≤ c.points) {J : Env.Env R → Nat → Judge R} {sort : List (Nat × R) → List (Nat × R)}
    (hso : Sorts sort) {e e' : Env.Env R} {as : List Nat} (he : Reach c e) (h : smart c J sort e = .ok (as, e')) :
    e'.cur = e.cur ∧ (∃ bs, Env.actions c e = .ok bs ∧ as.Perm bs) ∧
    ∀ (i k : Nat) (a b : Nat), i < k → as[i]? = some a → as[k]? = some b → ∀ f, Hist c e' f → f.cur = e.cur → ∀ j j',
      ∃ r r' g g', Env.step c f a j = .ok (r, g) ∧ Env.step c f b j' = .ok (r', g') ∧ r'.reward ≤ r.reward := by
  obtain ⟨h1, h2, h3, _, h5, h6⟩ := smart_spec hp hso he h
  refine ⟨h2, h3, ?_⟩
  intro i k a b hik ha hb f hf hfc j j'
  obtain ⟨hi, ha'⟩ := List.getElem?_eq_some_iff.1 ha
  obtain ⟨hk, hb'⟩ := List.getElem?_eq_some_iff.1 hb
  have hpair := List.pairwise_iff_getElem.1 h6 i k hi hk hik
  rw [ha', hb'] at hpair
  have hall : ∀ a ∈ as, ∃ r, e'.entry e.cur a = some r := by
    rcases h5 with rfl | h5
    · simp at hk; omega
    · exact h5
  obtain ⟨r, hr⟩ := hall a (List.mem_of_getElem? ha)
  obtain ⟨r', hr'⟩ := hall b (List.mem_of_getElem? hb)
  have hE := reach_ext hp (hist_trans he h1) hf
  refine ⟨r, r', _, _, step_again (by rw [hfc]; exact hE.cache _ _ _ hr) j, step_again (by rw [hfc]; exact hE.cache _ _ _ hr') j', ?_⟩
  unfold known at hpair
  rw [hr, hr'] at hpair
  exact hpair

/-- With the default memory of one move asking for actions is always defined. -/
theorem smart_ok {c : Env.Cfg} (hp : c.points = 2) (J : Env.Env R → Nat → Judge R) (sort : List (Nat × R) → List (Nat × R))
    {e : Env.Env R} (he : Reach c e) : ∃ as e', smart c J sort e = .ok (as, e') := by
  obtain ⟨_, s, hcur⟩ := Env.reach_live (by omega) he
  have hprobe : ∀ (as bs : List Nat), (∀ a ∈ as, a ∈ bs) → ∀ {e : Env.Env R}, Reach c e → Env.actions c e = .ok bs →
      ∃ x, probe c J e as = .ok x := by
    intro as bs
    induction as with
    | nil => intro _ e _ _; exact ⟨_, rfl⟩
    | cons a as ih =>
      intro hsub e he ha
      obtain ⟨r, e1, h1⟩ := Env.offered_actions_defined_partial hp he ha (hsub a (by simp)) (J e a)
      obtain ⟨g1, g2, g3, g4⟩ := step_facts (by omega) he h1
      have hlt : e.cur < e1.states.length := by
        obtain ⟨s, hs'⟩ := (Env.reach_live (by omega) he).cur
        exact (List.getElem?_eq_some_iff.1 (g2.states _ _ hs')).1
      have hgo : Reach c { e1 with cur := e.cur } := .snoc (.goto e.cur) g1 (by simp [Op.exec, hlt])
      have ha1 : Env.actions c { e1 with cur := e.cur } = .ok bs := by
        obtain ⟨s, hs'⟩ := (Env.reach_live (by omega) he).cur
        rw [← ha]
        unfold Env.actions
        simp only [hs', g2.states _ _ hs']
      obtain ⟨x, hx⟩ := ih (fun b hb => hsub b (List.mem_cons_of_mem _ hb)) hgo ha1
      rw [probe, h1, Outcome.bind_ok, hx]
      exact ⟨_, rfl⟩
  unfold smart
  rw [hcur]
  simp only
  cases hl : s.getLast? with
  | none => exact ⟨_, _, rfl⟩
  | some p =>
    simp only
    by_cases hc : p < c.n ∧ 0 < c.edges p.toNat
    · rw [if_pos hc]
      have ha : Env.actions c e = .ok (List.range' Env.special (c.edges p.toNat)) := by
        unfold Env.actions
        rw [hcur]
        simp only [hl, if_pos hc]
      obtain ⟨x, hx⟩ := hprobe _ _ (fun _ h => h) he ha
      rw [hx]
      exact ⟨_, _, rfl⟩
    · rw [if_neg hc]
      exact ⟨_, _, rfl⟩

/-! ### The process behind an environment -/

/-- What an environment remembers, as a process; only actions that were tried count. -/
def procOf (c : Env.Cfg) (sort : List (Nat × R) → List (Nat × R)) (e : Env.Env R) : Proc R where
  actions s := (order c sort e s).filter fun a => (e.entry s a).isSome
  next s a := match e.entry s a with | some r => r.state | none => 0
  reward s a := known e s a
  done s a := match e.entry s a with | some r => r.done | none => true
  move s a := match e.entry s a with
    | some r => (match moveE e s r with | .ok m => m | _ => none)
    | none => none

theorem proc_entry {c : Env.Cfg} {sort : List (Nat × R) → List (Nat × R)} {e : Env.Env R} {s a : Nat} {r : Res R}
    (h : e.entry s a = some r) : (procOf c sort e).next s a = r.state ∧ (procOf c sort e).reward s a = r.reward ∧
      (procOf c sort e).done s a = r.done := by
  simp [procOf, known, h]

/-- Estimates belong to steps that were taken. -/
def Tried (q : Table R) (e : Env.Env R) : Prop := ∀ s a x, (q s)[a]? = some (some x) → ∃ r, e.entry s a = some r

theorem Tried.mono {q : Table R} {e f : Env.Env R} (h : Tried q e) (hE : Ext e f) : Tried q f := by
  intro s a x hx
  obtain ⟨r, hr⟩ := h s a x hx
  exact ⟨r, hE.cache _ _ _ hr⟩

theorem tried_update {q : Table R} {e : Env.Env R} (h : Tried q e) (lr γ : R) (s a s' : Nat) (x : R) {r : Res R}
    (hr : e.entry s a = some r) : Tried (qUpdate lr γ q s a s' x) e := by
  intro t b y hy
  by_cases hc : t = s ∧ b = a
  · rw [hc.1, hc.2]; exact ⟨r, hr⟩
  · have := Learn.q_update_frame_partial lr γ q s a s' x t b hc
    rw [hy] at this
    exact h t b y (QLearn.join_some this.symm)

theorem random_sim {u : Setup R} (hp : 2 ≤ u.ec.points) (hso : Sorts u.sort) {q : Table R} {d : Draw} {e : Env.Env R} {pk : Pick R}
    (he : Reach u.ec e) (hq : Tried q e) (h : randomE u q e.cur d e = .ok pk) :
    Hist u.ec e pk.env ∧ pk.env.cur = e.cur ∧ Tried pk.table pk.env ∧ (∃ bs, Env.actions u.ec pk.env = .ok bs ∧ pk.action ∈ bs) ∧
      ∀ f, Ext pk.env f → (∃ r, f.entry e.cur pk.action = some r) →
        QLearn.randomAction (procOf u.ec u.sort f) u.qc q e.cur d = .ok (pk.action, pk.table) := by
  unfold randomE at h
  cases hs : smart u.ec u.J u.sort e with
  | throws => rw [hs] at h; simp at h
  | ub => rw [hs] at h; simp at h
  | ok x =>
    obtain ⟨as, e'⟩ := x
    rw [hs, Outcome.bind_ok] at h
    obtain ⟨h1, h2, ⟨bs, h3, h3'⟩, h4, h5, _⟩ := smart_spec hp hso he hs
    simp only at h
    cases ha : as[min (as.length - 1) d.number]? with
    | none => rw [ha] at h; simp at h
    | some a =>
      rw [ha] at h
      simp only [Outcome.ok.injEq] at h
      subst h
      refine ⟨h1, h2, ?_, ⟨bs, ?_, h3'.mem_iff.1 (List.mem_of_getElem? ha)⟩, ?_⟩
      · intro s b y hy
        have := (QLearn.getElem?_init q e.cur (as.length + u.qc.special) s b y).1 hy
        exact (hq.mono (reach_ext hp he h1)) s b y this
      · obtain ⟨_, t, hcur⟩ := Env.reach_live hp he
        rw [← h3]
        unfold Env.actions
        simp only [h2, hcur, (reach_ext hp he h1).states _ _ hcur]
      · intro f hf hfr
        have hact : (procOf u.ec u.sort f).actions e.cur = as := by
          show (order u.ec u.sort f e.cur).filter _ = as
          rw [h4 f hf, List.filter_eq_self]
          intro b hb
          rcases h5 with rfl | h5
          · obtain ⟨r, hr⟩ := hfr
            simp only [List.mem_singleton] at hb
            have hmem := List.mem_of_getElem? ha
            simp only [List.mem_singleton] at hmem
            subst hmem
            subst hb
            simp only at hr
            rw [hr]
            rfl
          · obtain ⟨r, hr⟩ := h5 b hb
            rw [hf.cache _ _ _ hr]
            rfl
        unfold QLearn.randomAction
        rw [hact, ha]

theorem choose_sim {u : Setup R} (hp : 2 ≤ u.ec.points) (hso : Sorts u.sort) {q : Table R} {d : Draw} {e : Env.Env R} {pk : Pick R}
    (he : Reach u.ec e) (hq : Tried q e) (h : chooseE u q e.cur d e = .ok pk) :
    Hist u.ec e pk.env ∧ pk.env.cur = e.cur ∧ Tried pk.table pk.env ∧
      ((∃ bs, Env.actions u.ec pk.env = .ok bs ∧ pk.action ∈ bs) ∨ ∃ r, pk.env.entry e.cur pk.action = some r) ∧
      ∀ f, Ext pk.env f → (∃ r, f.entry e.cur pk.action = some r) →
        QLearn.choose (procOf u.ec u.sort f) u.qc q e.cur d = .ok (pk.action, pk.table) := by
  unfold chooseE at h
  have hrand : randomE u q e.cur d e = .ok pk → (d.greedy = true → best (q e.cur) = none) →
      Hist u.ec e pk.env ∧ pk.env.cur = e.cur ∧ Tried pk.table pk.env ∧
      ((∃ bs, Env.actions u.ec pk.env = .ok bs ∧ pk.action ∈ bs) ∨ ∃ r, pk.env.entry e.cur pk.action = some r) ∧
      ∀ f, Ext pk.env f → (∃ r, f.entry e.cur pk.action = some r) →
        QLearn.choose (procOf u.ec u.sort f) u.qc q e.cur d = .ok (pk.action, pk.table) := by
    intro h hg
    obtain ⟨h1, h2, h3, h4, h5⟩ := random_sim hp hso he hq h
    refine ⟨h1, h2, h3, .inl h4, ?_⟩
    intro f hf hfr
    unfold QLearn.choose
    by_cases hgr : d.greedy = true
    · rw [if_pos hgr, hg hgr]
      exact h5 f hf hfr
    · rw [if_neg hgr]
      exact h5 f hf hfr
  by_cases hg : d.greedy = true
  · rw [if_pos hg] at h
    cases hb : best (q e.cur) with
    | none => rw [hb] at h; exact hrand h (fun _ => hb)
    | some a =>
      rw [hb] at h
      simp only [Outcome.ok.injEq] at h
      subst h
      obtain ⟨y, hy, _⟩ := QLearn.best_some hb
      refine ⟨.refl, rfl, hq, .inr (hq _ _ _ hy), ?_⟩
      intro f _ _
      unfold QLearn.choose
      rw [if_pos hg, hb]
  · rw [if_neg hg] at h
    exact hrand h (fun h => absurd h hg)

theorem train_sim {u : Setup R} (hp : 2 ≤ u.ec.points) (hso : Sorts u.sort) {rnd : Nat → Draw} (k : Nat) : ∀ {e e' : Env.Env R}
    {q : Table R} {score : R} {x : Table R × R}, Reach u.ec e → Tried q e → trainE u rnd k e.cur q score e = .ok (x, e') →
    Hist u.ec e e' ∧ Tried x.1 e' ∧ ∀ f, Ext e' f → QLearn.train (procOf u.ec u.sort f) u.qc rnd k e.cur q score = .ok x := by
  induction k with
  | zero =>
    intro e e' q score x _ hq h
    simp only [trainE, Outcome.ok.injEq, Prod.mk.injEq] at h
    obtain ⟨rfl, rfl⟩ := h
    exact ⟨.refl, hq, fun f _ => rfl⟩
  | succ k ih =>
    intro e e' q score x he hq h
    rw [trainE] at h
    cases hc : chooseE u q e.cur (rnd k) e with
    | throws => rw [hc] at h; simp at h
    | ub => rw [hc] at h; simp at h
    | ok pk =>
      rw [hc, Outcome.bind_ok] at h
      obtain ⟨h1, h2, h3, _, h5⟩ := choose_sim hp hso he hq hc
      cases hs : Env.step u.ec pk.env pk.action (u.J pk.env pk.action) with
      | throws => rw [hs] at h; simp at h
      | ub => rw [hs] at h; simp at h
      | ok y =>
        obtain ⟨r, e2⟩ := y
        rw [hs, Outcome.bind_ok] at h
        obtain ⟨g1, g2, g3, g4⟩ := step_facts hp (hist_trans he h1) hs
        rw [h2] at g3
        have htab : Tried (qUpdate u.qc.lr u.qc.discount pk.table e.cur pk.action r.state r.reward) e2 :=
          tried_update (h3.mono g2) _ _ _ _ _ _ g3
        have hpe : ∀ f, Ext e2 f → QLearn.choose (procOf u.ec u.sort f) u.qc q e.cur (rnd k) = .ok (pk.action, pk.table) :=
          fun f hf => h5 f (g2.trans hf) ⟨r, hf.cache _ _ _ g3⟩
        simp only at h
        by_cases hd : r.done = true
        · rw [if_pos hd] at h
          simp only [Outcome.ok.injEq, Prod.mk.injEq] at h
          obtain ⟨rfl, rfl⟩ := h
          refine ⟨hist_trans h1 (step_hist hs), htab, ?_⟩
          intro f hf
          obtain ⟨k1, k2, k3⟩ := proc_entry (c := u.ec) (sort := u.sort) (hf.cache _ _ _ g3)
          rw [QLearn.train, hpe f hf, Outcome.bind_ok]
          simp only
          rw [k1, k2, k3, if_pos hd]
        · rw [if_neg hd] at h
          rw [← g4] at h
          obtain ⟨i1, i2, i3⟩ := ih g1 (by rw [g4]; exact htab) h
          refine ⟨hist_trans h1 (hist_trans (step_hist hs) i1), i2, ?_⟩
          intro f hf
          have hE2 : Ext e2 f := (reach_ext hp g1 i1).trans hf
          obtain ⟨k1, k2, k3⟩ := proc_entry (c := u.ec) (sort := u.sort) (hE2.cache _ _ _ g3)
          rw [QLearn.train, hpe f hE2, Outcome.bind_ok]
          simp only
          rw [k1, k2, k3, if_neg hd]
          have := i3 f hf
          rw [g4] at this
          exact this

theorem move_ext {e f : Env.Env R} (hE : Ext e f) {s : Nat} {r : Res R} {m : Option Entry} (h : moveE e s r = .ok m) : moveE f s r = .ok m := by
  unfold moveE at h ⊢
  cases hs : e.states[s]? with
  | none => rw [hs] at h; simp at h
  | some t =>
    rw [hs] at h
    rw [hE.states _ _ hs]
    exact h

theorem extract_sim {u : Setup R} (hp : 2 ≤ u.ec.points) {q : Table R} (k : Nat) : ∀ {e e' : Env.Env R} {pol : List Entry} {score : R}
    {x : Extract R}, Reach u.ec e → extractE u q k e.cur pol score e = .ok (x, e') →
    Hist u.ec e e' ∧ ∀ f, Ext e' f → QLearn.extract (procOf u.ec u.sort f) q k e.cur pol score = x := by
  induction k with
  | zero =>
    intro e e' pol score x _ h
    simp only [extractE, Outcome.ok.injEq, Prod.mk.injEq] at h
    obtain ⟨rfl, rfl⟩ := h
    exact ⟨.refl, fun f _ => rfl⟩
  | succ k ih =>
    intro e e' pol score x he h
    rw [extractE] at h
    cases hb : best (q e.cur) with
    | none =>
      rw [hb] at h
      simp only [Outcome.ok.injEq, Prod.mk.injEq] at h
      obtain ⟨rfl, rfl⟩ := h
      exact ⟨.refl, fun f _ => by rw [QLearn.extract, hb]⟩
    | some a =>
      rw [hb] at h
      simp only at h
      cases hs : Env.step u.ec e a (u.J e a) with
      | throws => rw [hs] at h; simp at h
      | ub => rw [hs] at h; simp at h
      | ok y =>
        obtain ⟨r, e2⟩ := y
        rw [hs, Outcome.bind_ok] at h
        obtain ⟨g1, g2, g3, g4⟩ := step_facts hp he hs
        simp only at h
        cases hm : moveE e2 e.cur r with
        | throws => rw [hm] at h; simp at h
        | ub => rw [hm] at h; simp at h
        | ok m =>
          rw [hm, Outcome.bind_ok] at h
          have hmv : ∀ f, Ext e2 f → (procOf u.ec u.sort f).move e.cur a = m := by
            intro f hf
            show (match f.entry e.cur a with | some r => _ | none => _) = m
            rw [hf.cache _ _ _ g3]
            simp only [move_ext hf hm]
          by_cases hd : r.done = true
          · rw [if_pos hd] at h
            simp only [Outcome.ok.injEq, Prod.mk.injEq] at h
            obtain ⟨rfl, rfl⟩ := h
            refine ⟨step_hist hs, ?_⟩
            intro f hf
            obtain ⟨k1, k2, k3⟩ := proc_entry (c := u.ec) (sort := u.sort) (hf.cache _ _ _ g3)
            rw [QLearn.extract, hb]
            simp only
            rw [k2, k3, hmv f hf, if_pos hd]
          · rw [if_neg hd] at h
            rw [← g4] at h
            obtain ⟨i1, i2⟩ := ih g1 h
            refine ⟨hist_trans (step_hist hs) i1, ?_⟩
            intro f hf
            have hE2 : Ext e2 f := (reach_ext hp g1 i1).trans hf
            obtain ⟨k1, k2, k3⟩ := proc_entry (c := u.ec) (sort := u.sort) (hE2.cache _ _ _ g3)
            rw [QLearn.extract, hb]
            simp only
            rw [k1, k2, k3, hmv f hE2, if_neg hd]
            have := i2 f hf
            rw [g4] at this
            exact this

/-- Before the first episode, or later. -/
def Ready (c : Env.Cfg) (e : Env.Env R) : Prop := e = Env.Env.init ∨ Reach c e

theorem ready_ext {c : Env.Cfg} (hp : 2 ≤ c.points) {e f : Env.Env R} (h : Ready c e) (hf : Reach c f) (hh : e = Env.Env.init ∨ Hist c e f) :
    Ext e f := by
  rcases h with rfl | h
  · exact ⟨by simp [Env.Env.init], by simp [Env.Env.init, Env.Env.entry]⟩
  · rcases hh with rfl | hh
    · exact ⟨by simp [Env.Env.init], by simp [Env.Env.init, Env.Env.entry]⟩
    · exact reach_ext hp h hh

/-- Episodes begin at the state with the number 0. -/
theorem reset_facts {c : Env.Cfg} (hp : 2 ≤ c.points) {e : Env.Env R} (h : Ready c e) :
    Reach c (Env.reset c e) ∧ (Env.reset c e).cur = 0 ∧ Ext e (Env.reset c e) := by
  have h0 : (Env.reset c (Env.Env.init : Env.Env R)).states[0]? = some [0] := rfl
  rcases h with rfl | h
  · exact ⟨.refl, rfl, ⟨by simp [Env.Env.init], by simp [Env.Env.init, Env.Env.entry]⟩⟩
  · have hr : Reach c (Env.reset c e) := .snoc .reset h rfl
    obtain ⟨_, k2, k3⟩ := Env.reset_spec hp (Env.reach_live hp h).inv
    refine ⟨hr, ?_, k2⟩
    have hz : (Env.reset c e).states[0]? = some [0] :=
      (reach_ext hp (e := Env.reset c Env.Env.init) .refl hr).states _ _ h0
    exact Env.state_numbers_faithful hp hr k3 hz

theorem judge_sim {u : Setup R} (hp : 2 ≤ u.ec.points) {abort : Bool} {st : QLearn.St R} {e e' : Env.Env R} {x : QLearn.St R × Bool}
    (he : Reach u.ec e) (h : judgeE u abort st e = .ok (x, e')) :
    Hist u.ec e e' ∧ x.1.table = st.table ∧ ∀ f, Ext e' f → QLearn.judge (procOf u.ec u.sort f) u.qc 0 abort st = x := by
  unfold judgeE at h
  by_cases hc : u.qc.stop ≤ st.noImprovement ∨ abort = true
  · rw [if_pos hc] at h
    obtain ⟨r1, r2, r3⟩ := reset_facts hp (e := e) (.inr he)
    cases hx : extractE u st.table u.qc.maxSteps (Env.reset u.ec e).cur [] 0 (Env.reset u.ec e) with
    | throws => rw [hx] at h; simp at h
    | ub => rw [hx] at h; simp at h
    | ok y =>
      obtain ⟨y, e2⟩ := y
      rw [hx, Outcome.map_ok] at h
      simp only [Outcome.ok.injEq, Prod.mk.injEq] at h
      obtain ⟨rfl, rfl⟩ := h
      obtain ⟨h1, h2⟩ := extract_sim hp _ r1 hx
      refine ⟨hist_trans (.snoc .reset .refl rfl) h1, ?_, ?_⟩
      · unfold verdict extracted
        split_ifs <;> rfl
      · intro f hf
        have := h2 f hf
        rw [r2] at this
        unfold QLearn.judge
        rw [if_pos hc, this]
        rfl
  · rw [if_neg hc] at h
    simp only [Outcome.ok.injEq, Prod.mk.injEq] at h
    obtain ⟨rfl, rfl⟩ := h
    refine ⟨.refl, rfl, fun f _ => ?_⟩
    unfold QLearn.judge
    rw [if_neg hc]

theorem scored_table (st : QLearn.St R) (q : Table R) (score : R) : (scored st q score).table = q := by
  unfold scored
  split_ifs <;> rfl

theorem episodes_sim {u : Setup R} (hp : 2 ≤ u.ec.points) (hso : Sorts u.sort) {rnd : Nat → Nat → Draw} {abort : Nat → Bool} (k : Nat) :
    ∀ {e e' : Env.Env R} {st : QLearn.St R} {x : QLearn.St R × Bool}, Ready u.ec e → Tried st.table e →
      episodesE u rnd abort k st e = .ok (x, e') → Ready u.ec e' ∧ Ext e e' ∧
        ∀ f, Ext e' f → QLearn.episodes (procOf u.ec u.sort f) u.qc 0 rnd abort k st = .ok x := by
  induction k with
  | zero =>
    intro e e' st x he _ h
    simp only [episodesE, Outcome.ok.injEq, Prod.mk.injEq] at h
    obtain ⟨rfl, rfl⟩ := h
    exact ⟨he, .refl e, fun f _ => rfl⟩
  | succ k ih =>
    intro e e' st x he hq h
    rw [episodesE] at h
    obtain ⟨r1, r2, r3⟩ := reset_facts hp he
    cases ht : trainE u (rnd k) u.qc.maxSteps (Env.reset u.ec e).cur st.table 0 (Env.reset u.ec e) with
    | throws => rw [ht] at h; simp at h
    | ub => rw [ht] at h; simp at h
    | ok y =>
      obtain ⟨y, e1⟩ := y
      rw [ht, Outcome.bind_ok] at h
      obtain ⟨h1, h2, h3⟩ := train_sim hp hso _ r1 (hq.mono r3) ht
      simp only at h
      have he1 : Reach u.ec e1 := hist_trans r1 h1
      have hE1 : Ext e e1 := r3.trans (reach_ext hp r1 h1)
      cases hj : judgeE u (abort k) (scored st y.1 y.2) e1 with
      | throws => rw [hj] at h; simp at h
      | ub => rw [hj] at h; simp at h
      | ok z =>
        obtain ⟨z, e2⟩ := z
        rw [hj, Outcome.bind_ok] at h
        obtain ⟨g1, g2, g3⟩ := judge_sim hp he1 hj
        have he2 : Reach u.ec e2 := hist_trans he1 g1
        have hE2 : Ext e e2 := hE1.trans (reach_ext hp he1 g1)
        have htrain : ∀ f, Ext e2 f →
            QLearn.train (procOf u.ec u.sort f) u.qc (rnd k) u.qc.maxSteps 0 st.table 0 = .ok y := by
          intro f hf
          have := h3 f ((reach_ext hp he1 g1).trans hf)
          rw [r2] at this
          exact this
        simp only at h
        by_cases hz : z.2 = true
        · rw [if_pos hz] at h
          simp only [Outcome.ok.injEq, Prod.mk.injEq] at h
          obtain ⟨rfl, rfl⟩ := h
          refine ⟨.inr he2, hE2, ?_⟩
          intro f hf
          rw [QLearn.episodes, htrain f hf, Outcome.bind_ok, g3 f hf, if_pos hz]
        · rw [if_neg hz] at h
          have htab : Tried z.1.table e2 := by
            rw [g2, scored_table]
            exact h2.mono (reach_ext hp he1 g1)
          obtain ⟨i1, i2, i3⟩ := ih (.inr he2) htab h
          refine ⟨i1, hE2.trans i2, ?_⟩
          intro f hf
          have hf2 := i2.trans hf
          rw [QLearn.episodes, htrain f hf2, Outcome.bind_ok, g3 f hf2, if_neg hz]
          exact i3 f hf

theorem run_sim {u : Setup R} (hp : 2 ≤ u.ec.points) (hso : Sorts u.sort) {rnd : Nat → Nat → Draw} {aborted : Bool} {abort : Nat → Bool}
    {x : QLearn.St R × Bool} {e : Env.Env R} (h : runE u rnd aborted abort = .ok (x, e)) :
    Ready u.ec e ∧ QLearn.run (procOf u.ec u.sort e) u.qc 0 rnd aborted abort = .ok x := by
  unfold runE at h
  unfold QLearn.run
  by_cases ha : aborted = true
  · rw [if_pos ha] at h ⊢
    simp only [Outcome.ok.injEq, Prod.mk.injEq] at h
    obtain ⟨rfl, rfl⟩ := h
    exact ⟨.inl rfl, rfl⟩
  · rw [if_neg ha] at h ⊢
    obtain ⟨h1, _, h3⟩ := episodes_sim hp hso _ (.inl rfl) (by intro s a x hx; simp [QLearn.St.init] at hx) h
    exact ⟨h1, h3 e (.refl e)⟩

/-! ### Always defined -/

theorem step_defined {c : Env.Cfg} (hp : c.points = 2) {e : Env.Env R} (he : Reach c e) {a : Nat}
    (h : (∃ bs, Env.actions c e = .ok bs ∧ a ∈ bs) ∨ ∃ r, e.entry e.cur a = some r) (j : Judge R) : ∃ r e', Env.step c e a j = .ok (r, e') := by
  rcases h with ⟨bs, h1, h2⟩ | ⟨r, hr⟩
  · exact Env.offered_actions_defined_partial hp he h1 h2 j
  · exact ⟨r, _, step_again hr j⟩

theorem choose_defined {u : Setup R} (hp : u.ec.points = 2) (hso : Sorts u.sort) (q : Table R) (d : Draw) {e : Env.Env R}
    (he : Reach u.ec e) : ∃ pk, chooseE u q e.cur d e = .ok pk := by
  have hr : ∃ pk, randomE u q e.cur d e = .ok pk := by
    obtain ⟨as, e', h⟩ := smart_ok hp u.J u.sort he
    obtain ⟨_, _, ⟨bs, h3, h3'⟩, _⟩ := smart_spec (by omega) hso he h
    have hne := QLearn.actions_offered h3
    have hl : 0 < as.length := by
      rw [h3'.length_eq]
      exact List.length_pos_iff.2 hne
    unfold randomE
    rw [h, Outcome.bind_ok]
    simp only
    rw [List.getElem?_eq_getElem (show min (as.length - 1) d.number < as.length by omega)]
    exact ⟨_, rfl⟩
  unfold chooseE
  by_cases hg : d.greedy = true
  · rw [if_pos hg]
    cases best (q e.cur) with
    | none => exact hr
    | some a => exact ⟨_, rfl⟩
  · rw [if_neg hg]
    exact hr

theorem train_defined {u : Setup R} (hp : u.ec.points = 2) (hso : Sorts u.sort) (rnd : Nat → Draw) (k : Nat) : ∀ {e : Env.Env R}
    {q : Table R} (score : R), Reach u.ec e → Tried q e → ∃ x, trainE u rnd k e.cur q score e = .ok x := by
  induction k with
  | zero => intro e q score _ _; exact ⟨_, rfl⟩
  | succ k ih =>
    intro e q score he hq
    obtain ⟨pk, hc⟩ := choose_defined hp hso q (rnd k) he
    obtain ⟨h1, h2, h3, h4, _⟩ := choose_sim (by omega) hso he hq hc
    obtain ⟨r, e2, hs⟩ := step_defined hp (hist_trans he h1) (by rw [h2]; exact h4) (u.J pk.env pk.action)
    obtain ⟨g1, g2, g3, g4⟩ := step_facts (by omega) (hist_trans he h1) hs
    rw [h2] at g3
    rw [trainE, hc, Outcome.bind_ok, hs, Outcome.bind_ok]
    simp only
    by_cases hd : r.done = true
    · rw [if_pos hd]; exact ⟨_, rfl⟩
    · rw [if_neg hd, ← g4]
      exact ih _ g1 (by rw [g4]; exact tried_update (h3.mono g2) _ _ _ _ _ _ g3)

theorem move_defined {c : Env.Cfg} (hp : 2 ≤ c.points) {e : Env.Env R} (he : Reach c e) {s : Nat} (hs : s < e.states.length) (r : Res R) :
    ∃ m, moveE e s r = .ok m := by
  unfold moveE
  rw [List.getElem?_eq_getElem hs]
  obtain ⟨b, hb, _⟩ := ((Env.reach_live hp he).inv.ok _ (List.getElem_mem hs)).good.last
  simp only [hb]
  exact ⟨_, rfl⟩

theorem extract_defined {u : Setup R} (hp : 2 ≤ u.ec.points) {q : Table R} (k : Nat) : ∀ {e : Env.Env R} (pol : List Entry) (score : R),
    Reach u.ec e → Tried q e → ∃ x, extractE u q k e.cur pol score e = .ok x := by
  induction k with
  | zero => intro e pol score _ _; exact ⟨_, rfl⟩
  | succ k ih =>
    intro e pol score he hq
    rw [extractE]
    cases hb : best (q e.cur) with
    | none => exact ⟨_, rfl⟩
    | some a =>
      obtain ⟨y, hy, _⟩ := QLearn.best_some hb
      obtain ⟨r, hr⟩ := hq _ _ _ hy
      have hs := step_again (c := u.ec) hr (u.J e a)
      obtain ⟨g1, g2, g3, g4⟩ := step_facts hp he hs
      simp only
      rw [hs, Outcome.bind_ok]
      obtain ⟨m, hm⟩ := move_defined hp g1 (s := e.cur) (reach_cur hp he) r
      simp only
      rw [hm, Outcome.bind_ok]
      by_cases hd : r.done = true
      · rw [if_pos hd]; exact ⟨_, rfl⟩
      · rw [if_neg hd]
        exact ih _ _ g1 (hq.mono g2)

theorem episodes_defined {u : Setup R} (hp : u.ec.points = 2) (hso : Sorts u.sort) (rnd : Nat → Nat → Draw) (abort : Nat → Bool) (k : Nat) :
    ∀ {e : Env.Env R} {st : QLearn.St R}, Ready u.ec e → Tried st.table e → ∃ x, episodesE u rnd abort k st e = .ok x := by
  have hp2 : 2 ≤ u.ec.points := by omega
  induction k with
  | zero => intro e st _ _; exact ⟨_, rfl⟩
  | succ k ih =>
    intro e st he hq
    obtain ⟨r1, r2, r3⟩ := reset_facts hp2 he
    obtain ⟨⟨y, e1⟩, ht⟩ := train_defined hp hso (rnd k) u.qc.maxSteps 0 r1 (hq.mono r3)
    obtain ⟨h1, h2, _⟩ := train_sim hp2 hso _ r1 (hq.mono r3) ht
    have he1 : Reach u.ec e1 := hist_trans r1 h1
    have hj : ∃ z, judgeE u (abort k) (scored st y.1 y.2) e1 = .ok z := by
      unfold judgeE
      split_ifs with hc
      · obtain ⟨s1, s2, s3⟩ := reset_facts hp2 (.inr he1)
        obtain ⟨x, hx⟩ := extract_defined (u := u) hp2 (q := (scored st y.1 y.2).table) u.qc.maxSteps [] 0 s1
          (by rw [scored_table]; exact h2.mono s3)
        rw [hx]
        exact ⟨_, rfl⟩
      · exact ⟨_, rfl⟩
    obtain ⟨⟨z, e2⟩, hj⟩ := hj
    obtain ⟨g1, g2, _⟩ := judge_sim hp2 he1 hj
    rw [episodesE, ht, Outcome.bind_ok]
    simp only
    rw [hj, Outcome.bind_ok]
    simp only
    by_cases hz : z.2 = true
    · rw [if_pos hz]; exact ⟨_, rfl⟩
    · rw [if_neg hz]
      refine ih (.inr (hist_trans he1 g1)) ?_
      rw [g2, scored_table]
      exact h2.mono (reach_ext hp2 he1 g1)

/-- **C105, defined.**  With the default memory of one move learning ends without undefined behaviour and without an exception, whatever
router and geometry say, however equal rewards are sorted, whatever is drawn and whenever the time is up.
Missing: longer memories, where steps can be undefined (`MM.Env.offered_actions_defined_fails`). -/
theorem run_defined_partial {u : Setup R} (hp : u.ec.points = 2) (hso : Sorts u.sort) (rnd : Nat → Nat → Draw) (aborted : Bool)
    (abort : Nat → Bool) : ∃ x, runE u rnd aborted abort = .ok x := by
  unfold runE
  split_ifs with ha
  · exact ⟨_, rfl⟩
  · exact episodes_defined hp hso rnd abort _ (.inl rfl) (by intro s a x hx; simp [QLearn.St.init] at hx)

/-! ### What the environment remembers of a step -/

/-- The next position, and the edge if one is taken. -/
def Fair (c : Env.Cfg) (b b' : Int) (a : Int) : Prop := b ≤ b' ∧ (0 ≤ a → c.hasEdge b a = true ∧ b < b')

theorem reward_fair {c : Env.Cfg} {s ns : Env.St} {a b : Int} {j : Judge R} {m : Env.Move R} (hb : s.getLast? = some b)
    (hn : Env.newState c s a = .ok ns) (hr : Env.rewardOf c s ns a j = .ok m) :
    ∃ b', m.state.getLast? = some b' ∧ Fair c b b' m.action ∧ (m.action = a ∨ m.action = Env.skipAction) := by
  have hns : ns.getLast? = some (b + 1) := by
    unfold Env.newState at hn
    rw [hb] at hn
    simp only at hn
    split_ifs at hn <;> cases hn <;> simp
  have hne : s ≠ [] := by rintro rfl; simp at hb
  have hsk : 3 ≤ s.length → (Env.skipState s).getLast? = some b := by
    intro h3
    unfold Env.skipState
    rw [if_pos h3, Env.drop2_getLast? h3, hb]
  have hdn : (Env.doneState c s).getLast? = some (c.n : Int) := by
    unfold Env.doneState
    rw [if_neg hne]
    simp
  unfold Env.rewardOf at hr
  by_cases ha : 0 ≤ a
  · rw [if_pos ⟨hne, ha⟩] at hr
    by_cases he : c.hasEdge (Env.fromBack s 1) a = true
    · rw [if_pos he] at hr
      rw [Env.fromBack_1 hb] at he
      have hlt : b < c.n := by
        unfold Env.Cfg.hasEdge at he
        simp only [Bool.and_eq_true, decide_eq_true_eq] at he
        omega
      have hprev : ∀ {m : Env.Move R} {x : Env.Move R} {b' : Int}, Env.prevCheck c s j m = .ok x → m.state.getLast? = some b' →
          Fair c b b' m.action → (m.action = a ∨ m.action = Env.skipAction) →
          ∃ b', x.state.getLast? = some b' ∧ Fair c b b' x.action ∧ (x.action = a ∨ x.action = Env.skipAction) := by
        intro m x b' hx h1 h2 h3
        unfold Env.prevCheck at hx
        split_ifs at hx <;> cases hx
        · exact ⟨b', h1, h2, h3⟩
        · exact ⟨b', h1, h2, h3⟩
        · exact ⟨c.n, hdn, ⟨by omega, fun h0 => ⟨(h2.2 h0).1, hlt⟩⟩, h3⟩
        · exact ⟨b', h1, h2, h3⟩
        · exact ⟨b', h1, h2, h3⟩
      have hfa : Fair c b (b + 1) a := ⟨by omega, fun _ => ⟨he, by omega⟩⟩
      have hfs : Fair c b b Env.skipAction := ⟨le_refl _, fun h0 => absurd h0 (by decide)⟩
      split_ifs at hr with h1 h2 h3 h4 h5 h6
      · cases hr; exact ⟨b + 1, hns, hfa, .inl rfl⟩
      · cases hr; exact ⟨b, hsk (by omega), hfs, .inr rfl⟩
      · cases hr; exact ⟨b + 1, hns, hfa, .inl rfl⟩
      · exact hprev hr (hsk (by omega)) hfs (.inr rfl)
      · exact hprev hr hns hfa (.inl rfl)
      · cases hr; exact ⟨b + 1, hns, hfa, .inl rfl⟩
    · rw [if_neg he] at hr; cases hr
  · rw [if_neg (fun hc => ha hc.2)] at hr
    cases hr
    exact ⟨b + 1, hns, ⟨by omega, fun h0 => absurd h0 ha⟩, .inl rfl⟩

/-- Every result remembered is of a move forward, of the edge asked for or of none. -/
def Rule (c : Env.Cfg) (e : Env.Env R) : Prop := ∀ (st a : Nat) (r : Res R) (s : Env.St), e.entry st a = some r → e.states[st]? = some s →
  ∃ (t : Env.St) (b b' : Int), e.states[r.state]? = some t ∧ s.getLast? = some b ∧ t.getLast? = some b' ∧
    Fair c b b' (action2internal r.action) ∧ (r.action = a ∨ r.action = 1)

theorem rule_mono {c : Env.Cfg} {e f : Env.Env R} (h : Rule c e) (hE : Ext e f) (hent : ∀ st a, f.entry st a = e.entry st a)
    (hc : e.cache.length = e.states.length) : Rule c f := by
  intro st a r s hr hs
  rw [hent] at hr
  have hlt : st < e.states.length := by
    by_contra hge
    unfold Env.Env.entry at hr
    rw [List.getElem?_eq_none (by omega)] at hr
    cases hr
  have hs0 := List.getElem?_eq_getElem hlt
  have := hE.states _ _ hs0
  rw [hs] at this
  cases this
  obtain ⟨t, b, b', h1, h2⟩ := h st a r _ hr hs0
  exact ⟨t, b, b', hE.states _ _ h1, h2⟩

theorem internal_ge (c : Env.Cfg) {a : Int} (x : Nat) (h : a = action2internal x ∨ a = Env.skipAction) : -2 ≤ a := by
  rcases h with rfl | rfl
  · unfold action2internal noAction Env.skipAction
    split_ifs <;> omega
  · decide

theorem step_rule {c : Env.Cfg} (hp : 2 ≤ c.points) {e e' : Env.Env R} (hl : Live c e) (h : Rule c e) {a : Nat} {j : Judge R} {r : Res R}
    (hx : Env.step c e a j = .ok (r, e')) : Rule c e' := by
  obtain ⟨hi, s, hs⟩ := hl
  obtain ⟨k1, k2, k3, k4, _⟩ := Env.step_spec hp hi hs hx
  unfold Env.step at hx
  cases hc : Env.cached e a with
  | some r' =>
    rw [hc] at hx
    simp only [Outcome.ok.injEq, Prod.mk.injEq] at hx
    obtain ⟨rfl, rfl⟩ := hx
    exact h
  | none =>
    rw [hc, hs] at hx
    simp only at hx
    cases hn : Env.newState c s (action2internal a) with
    | throws => rw [hn] at hx; cases hx
    | ub => rw [hn] at hx; cases hx
    | ok ns =>
      rw [hn] at hx
      simp only [Outcome.bind_ok] at hx
      cases hr : Env.rewardOf c s ns (action2internal a) j with
      | throws => rw [hr] at hx; cases hx
      | ub => rw [hr] at hx; cases hx
      | ok m =>
        rw [hr] at hx
        simp only [Outcome.bind_ok, Outcome.ok.injEq, Prod.mk.injEq] at hx
        obtain ⟨hr', he'⟩ := hx
        have hok := hi.ok s (List.mem_of_getElem? hs)
        have hsucc := Env.rewardOf_spec hp hok hn hr
        obtain ⟨b, hb, _⟩ := hok.good.last
        obtain ⟨b', f1, f2, f3⟩ := reward_fair hb hn hr
        obtain ⟨g1, g2, g3, g4, g5, g6⟩ := Env.intern_spec hi hsucc.ok
        have hcl : e.cur < (Env.intern c e m.state).2.cache.length := by
          rw [g1.clen]
          exact (List.getElem?_eq_some_iff.1 (g2.states _ _ hs)).1
        rw [hr'] at he'
        have hE : ∀ st' a', e'.entry st' a' = if st' = e.cur ∧ a' = a then some r else e.entry st' a' := by
          intro st' a'
          rw [← he', ← g5]
          exact Env.entry_store _ e.cur a r hcl st' a'
        have hS : e'.states = (Env.intern c e m.state).2.states := by rw [← he']; rfl
        have hmid : Rule c (Env.intern c e m.state).2 := rule_mono h g2 g5 hi.clen
        intro st b0 r0 s0 hr0 hs0
        rw [hE] at hr0
        rw [hS] at hs0 ⊢
        split_ifs at hr0 with hcond
        · cases hr0
          obtain ⟨rfl, rfl⟩ := hcond
          have : s0 = s := by
            have := g2.states _ _ hs
            rw [hs0] at this; exact Option.some.inj this
          subst this
          refine ⟨m.state, b, b', by rw [← hr']; exact g3, hb, f1, ?_, ?_⟩
          · rw [← hr']
            simp only
            rw [Env.decode_encode _ (internal_ge c _ f3)]
            exact f2
          · rw [← hr']
            simp only
            rcases f3 with f3 | f3
            · rw [f3, Env.encode_decode]; exact .inl rfl
            · rw [f3]; exact .inr (by decide)
        · exact hmid st b0 r0 s0 ((g5 st b0).trans hr0) hs0

theorem reach_rule {c : Env.Cfg} (hp : 2 ≤ c.points) {e : Env.Env R} (h : Reach c e) : Rule c e := by
  have hinit : Rule c (Env.Env.init : Env.Env R) := by
    intro st a r s hr
    simp [Env.Env.entry, Env.Env.init] at hr
  have hreset : ∀ {e : Env.Env R}, Inv c e → Rule c e → Rule c (Env.reset c e) := by
    intro e hi hr
    obtain ⟨_, g2, _, _, g5, _⟩ := Env.intern_spec hi (Env.start_ok hp)
    exact rule_mono (f := (Env.intern c e [0]).2) hr g2 g5 hi.clen
  unfold Reach at h
  induction h with
  | refl => exact hreset Env.inv_init hinit
  | @snoc f g op hh hx ih =>
    have hl : Live c f := Env.reach_live hp hh
    cases op with
    | reset =>
      simp only [Op.exec, Outcome.ok.injEq] at hx
      subst hx
      exact hreset hl.inv ih
    | step a j =>
      simp only [Op.exec] at hx
      cases hs : Env.step c f a j with
      | throws => rw [hs] at hx; cases hx
      | ub => rw [hs] at hx; cases hx
      | ok p =>
        rw [hs] at hx
        cases hx
        exact step_rule hp hl ih (r := p.1) hs
    | goto st =>
      simp only [Op.exec] at hx
      split_ifs at hx with hlt
      cases hx
      exact ih

/-! ### Trips -/

/-- A way through the environment, by offered actions, up to the step that reports the end: what is written for each step, and the sum
of the rewards. -/
inductive Trip (c : Env.Cfg) : Env.Env R → List (Option Entry) → R → Prop
  | last {e e' : Env.Env R} {as : List Nat} {a : Nat} {j : Judge R} {r : Res R} {m : Option Entry} :
      Env.actions c e = .ok as → a ∈ as → Env.step c e a j = .ok (r, e') → r.done = true → moveE e e.cur r = .ok m → Trip c e [m] r.reward
  | cons {e e' : Env.Env R} {as : List Nat} {a : Nat} {j : Judge R} {r : Res R} {m : Option Entry} {ms : List (Option Entry)} {x : R} :
      Env.actions c e = .ok as → a ∈ as → Env.step c e a j = .ok (r, e') → r.done = false → moveE e e.cur r = .ok m → Trip c e' ms x →
      Trip c e (m :: ms) (r.reward + x)

theorem order_actions {c : Env.Cfg} {sort : List (Nat × R) → List (Nat × R)} (hso : Sorts sort) {e : Env.Env R} {a : Nat}
    (h : a ∈ order c sort e e.cur) : ∃ as, Env.actions c e = .ok as ∧ a ∈ as := by
  unfold order at h
  unfold Env.actions
  cases hs : e.states[e.cur]? with
  | none => rw [hs] at h; simp at h
  | some s =>
    rw [hs] at h
    simp only at h ⊢
    cases hl : s.getLast? with
    | none => rw [hl] at h; exact ⟨_, rfl, h⟩
    | some p =>
      rw [hl] at h
      simp only at h ⊢
      by_cases hc : p < c.n ∧ 0 < c.edges p.toNat
      · rw [if_pos hc] at h ⊢
        refine ⟨_, rfl, ?_⟩
        obtain ⟨x, hx, rfl⟩ := List.mem_map.1 h
        have := (hso _).1.mem_iff.1 hx
        obtain ⟨y, hy, rfl⟩ := List.mem_map.1 this
        exact hy
      · rw [if_neg hc] at h ⊢
        exact ⟨_, rfl, h⟩

theorem proc_step {c : Env.Cfg} (hp : 2 ≤ c.points) {sort : List (Nat × R) → List (Nat × R)} (hso : Sorts sort) {e : Env.Env R}
    (he : Reach c e) {a : Nat} (h : a ∈ (procOf c sort e).actions e.cur) :
    ∃ r, e.entry e.cur a = some r ∧ (∃ as, Env.actions c e = .ok as ∧ a ∈ as) ∧
      moveE e e.cur r = .ok ((procOf c sort e).move e.cur a) ∧ Reach c { e with cur := r.state } := by
  have h' : a ∈ (order c sort e e.cur).filter fun a => (e.entry e.cur a).isSome := h
  rw [List.mem_filter] at h'
  obtain ⟨r, hr⟩ := Option.isSome_iff_exists.1 h'.2
  have hst := step_again (c := c) hr ⟨0, false, false, false, false⟩
  refine ⟨r, hr, order_actions hso h'.1, ?_, (step_facts hp he hst).1⟩
  obtain ⟨m, hm⟩ := move_defined hp he (reach_cur hp he) r
  rw [hm]
  simp [procOf, hr, hm]

theorem walk_trip {c : Env.Cfg} (hp : 2 ≤ c.points) {sort : List (Nat × R) → List (Nat × R)} (hso : Sorts sort)
    (w : List (Nat × Nat)) : ∀ {e : Env.Env R}, Reach c e → Walk (procOf c sort e) e.cur w → Ends (procOf c sort e) w →
      Trip c e (w.map fun x => (procOf c sort e).move x.1 x.2) (QLearn.total (procOf c sort e) w) := by
  induction w with
  | nil => intro e _ _ h; obtain ⟨x, hx, _⟩ := h; simp at hx
  | cons x w ih =>
    intro e he hw hE
    obtain ⟨t, a⟩ := x
    obtain ⟨rfl, ha, hd, hw⟩ := hw
    obtain ⟨r, hr, ⟨as, h1, h2⟩, hm, hre⟩ := proc_step hp hso he ha
    obtain ⟨p1, p2, p3⟩ := proc_entry (c := c) (sort := sort) hr
    have hst := step_again (c := c) hr ⟨0, false, false, false, false⟩
    by_cases hdone : r.done = true
    · have := hd (by rw [p3]; exact hdone)
      subst this
      have ht : QLearn.total (procOf c sort e) [(e.cur, a)] = r.reward := by simp [QLearn.total, p2]
      rw [ht]
      exact .last h1 h2 hst hdone hm
    · have ht : QLearn.total (procOf c sort e) ((e.cur, a) :: w) = r.reward + QLearn.total (procOf c sort e) w := by
        simp [QLearn.total, p2]
      rw [ht]
      refine .cons h1 h2 hst (by simpa using hdone) hm ?_
      have hsame : procOf c sort { e with cur := r.state } = procOf c sort e := rfl
      rw [← hsame]
      refine ih (e := { e with cur := r.state }) hre ?_ ?_
      · rw [hsame, ← p1]; exact hw
      · rw [hsame]
        obtain ⟨y, hy, hyd⟩ := hE
        cases w with
        | nil =>
          simp only [List.getLast?_singleton, Option.some.injEq] at hy
          subst hy
          rw [p3] at hyd
          exact absurd hyd hdone
        | cons z w => exact ⟨y, by rw [← hy, List.getLast?_cons_cons], hyd⟩

theorem walk_episode {c : Env.Cfg} (hp : 2 ≤ c.points) {sort : List (Nat × R) → List (Nat × R)} (hso : Sorts sort)
    (w : List (Nat × Nat)) : ∀ {e : Env.Env R}, Reach c e → Walk (procOf c sort e) e.cur w → ¬ Ends (procOf c sort e) w →
      ∃ rs f, Env.Episode c e rs f ∧ rs.length = w.length ∧ ∀ r ∈ rs, r.done = false := by
  induction w with
  | nil => intro e _ _ _; exact ⟨[], e, .nil e, rfl, by simp⟩
  | cons x w ih =>
    intro e he hw hE
    obtain ⟨t, a⟩ := x
    obtain ⟨rfl, ha, hd, hw⟩ := hw
    obtain ⟨r, hr, _, _, hre⟩ := proc_step hp hso he ha
    obtain ⟨p1, p2, p3⟩ := proc_entry (c := c) (sort := sort) hr
    have hst := step_again (c := c) hr ⟨0, false, false, false, false⟩
    have hsame : procOf c sort { e with cur := r.state } = procOf c sort e := rfl
    have hnd : r.done = false := by
      by_contra hdone
      have hdone : r.done = true := by simpa using hdone
      have := hd (by rw [p3]; exact hdone)
      subst this
      exact hE ⟨(e.cur, a), rfl, p3.trans hdone⟩
    obtain ⟨rs, f, g1, g2, g3⟩ := ih (e := { e with cur := r.state }) hre (by rw [hsame, ← p1]; exact hw) (by
      rw [hsame]
      intro hE'
      apply hE
      obtain ⟨y, hy, hyd⟩ := hE'
      cases w with
      | nil => simp at hy
      | cons z w => exact ⟨y, by rw [← hy, List.getLast?_cons_cons], hyd⟩)
    refine ⟨r :: rs, f, .cons a _ hst g1, by simp [g2], ?_⟩
    intro x hx
    rcases List.mem_cons.1 hx with rfl | hx
    · exact hnd
    · exact g3 x hx

/-- Once a reset was done, another one only changes the state. -/
theorem reset_again {c : Env.Cfg} (hp : 2 ≤ c.points) {e : Env.Env R} (h : Reach c e) : Env.reset c e = { e with cur := 0 } := by
  have h0 : e.states[0]? = some [0] := (reach_ext hp (e := Env.reset c Env.Env.init) .refl h).states _ _ rfl
  have h1 := (reset_facts hp (.inr h)).2.1
  unfold Env.reset at h1 ⊢
  unfold Env.intern at h1 ⊢
  cases hl : e.smap.lookup [0] with
  | some i => rw [hl] at h1; simp only at h1 ⊢; rw [h1]
  | none =>
    rw [hl] at h1
    simp only at h1
    rw [List.length_eq_zero_iff.1 h1] at h0
    simp at h0

theorem proc_bounded {u : Setup R} (hp : 2 ≤ u.ec.points) (hso : Sorts u.sort) (hn : 0 < u.ec.n) (hm : u.qc.maxSteps = 2 * u.ec.n)
    {e : Env.Env R} (he : Reach u.ec e) : QLearn.Bounded (procOf u.ec u.sort e) u.qc 0 := by
  intro w hw hl
  by_contra hE
  have hr := reset_facts hp (.inr he)
  have heq := reset_again hp he
  rw [heq] at hr
  obtain ⟨rs, f, h1, h2, h3⟩ := walk_episode hp hso w (e := { e with cur := 0 }) hr.1 hw hE
  rw [← heq] at h1
  have hne : rs ≠ [] := by
    intro h0
    rw [h0] at h2
    rw [← h2] at hl
    simp at hl
    omega
  obtain ⟨r, hr1, hr2⟩ := Env.episode_ends hp he h1 hne (by omega)
  rw [h3 r hr1] at hr2
  cases hr2

theorem ends_reach {u : Setup R} {e : Env.Env R} (he : Ready u.ec e) {w : List (Nat × Nat)} (hw : Walk (procOf u.ec u.sort e) 0 w)
    (hE : Ends (procOf u.ec u.sort e) w) : Reach u.ec e := by
  rcases he with rfl | he
  · exfalso
    obtain ⟨x, hx, _⟩ := hE
    cases w with
    | nil => simp at hx
    | cons y w =>
      have := hw.2.1
      simp [procOf, order, Env.Env.init] at this
  · exact he

theorem ready_bounded {u : Setup R} (hp : 2 ≤ u.ec.points) (hso : Sorts u.sort) (hn : 0 < u.ec.n) (hm : u.qc.maxSteps = 2 * u.ec.n)
    {e : Env.Env R} (he : Ready u.ec e) : QLearn.Bounded (procOf u.ec u.sort e) u.qc 0 := by
  rcases he with rfl | he
  · intro w hw hl
    cases w with
    | nil => simp at hl; omega
    | cons y w =>
      have := hw.2.1
      simp [procOf, order, Env.Env.init] at this
  · exact proc_bounded hp hso hn hm he

/-- **C105, what is learned.**  A policy, whenever it is written and whatever router and geometry said meanwhile, is what is written for a
whole trip through the environment that the learner leaves behind: from a reset, by actions offered where they are taken, to the step that
reports the end.  There is one whenever training broke off.  Missing: a policy if the episodes run out before (C92). -/
theorem learned_trip_partial {u : Setup R} (hp : 2 ≤ u.ec.points) (hso : Sorts u.sort) (hn : 0 < u.ec.n)
    (hm : u.qc.maxSteps = 2 * u.ec.n) {rnd : Nat → Nat → Draw} {aborted : Bool} {abort : Nat → Bool} {st : QLearn.St R} {f : Bool}
    {e : Env.Env R} (h : runE u rnd aborted abort = .ok ((st, f), e)) (hst : st.policy ≠ [] ∨ f = true) :
    Reach u.ec e ∧ ∃ ms x, Trip u.ec (Env.reset u.ec e) ms x ∧ st.policy = policyOf ms ∧ ms.length ≤ 2 * u.ec.n := by
  obtain ⟨h1, h2⟩ := run_sim hp hso h
  obtain ⟨w, w1, w2, w3, w4⟩ := QLearn.whole_partial (ready_bounded hp hso hn hm h1) h2 hst
  have he := ends_reach h1 w1 w3
  have hr := reset_facts hp (.inr he)
  have heq := reset_again hp he
  rw [heq] at hr
  refine ⟨he, _, QLearn.total (procOf u.ec u.sort e) w, ?_, w4, by simpa [← hm] using w2⟩
  rw [heq]
  exact walk_trip hp hso w (e := { e with cur := 0 }) hr.1 w1 w3

/-- **C105, when learning ends.**  Breaking off because nothing improved means: `improvement_stop` attempts in a row brought no sum of
rewards above one seen before; all these sums are of whole trips through the environment left behind. -/
theorem learned_stop {u : Setup R} (hp : 2 ≤ u.ec.points) (hso : Sorts u.sort) (hn : 0 < u.ec.n)
    (hm : u.qc.maxSteps = 2 * u.ec.n) {rnd : Nat → Nat → Draw} {aborted : Bool} {abort : Nat → Bool} {st : QLearn.St R}
    {e : Env.Env R} (h : runE u rnd aborted abort = .ok ((st, true), e)) (ha : ∀ k, abort k = false) (hs : 0 < u.qc.stop) :
    ∃ pre b post, st.scores = pre ++ b :: post ∧ u.qc.stop ≤ post.length ∧ (∀ x ∈ pre, x < b) ∧ (∀ x ∈ post, x ≤ b) ∧
      ∀ x ∈ st.scores, ∃ ms, Trip u.ec (Env.reset u.ec e) ms x := by
  obtain ⟨h1, h2⟩ := run_sim hp hso h
  obtain ⟨pre, b, post, k1, k2, k3, k4, k5⟩ := QLearn.stop_rule h2 ha hs
  refine ⟨pre, b, post, k1, k2, k3, k4, ?_⟩
  intro x hx
  obtain ⟨w, w1, w2, w3, w4⟩ := k5 x hx
  have hE : Ends (procOf u.ec u.sort e) w := by
    rcases w3 with w3 | w3
    · exact ready_bounded hp hso hn hm h1 w w1 w3
    · exact w3
  have he := ends_reach h1 w1 hE
  have hr := reset_facts hp (.inr he)
  have heq := reset_again hp he
  rw [heq] at hr
  refine ⟨w.map fun y => (procOf u.ec u.sort e).move y.1 y.2, ?_⟩
  rw [heq, w4]
  exact walk_trip hp hso w (e := { e with cur := 0 }) hr.1 w1 hE

/-! ### What is on a trip -/

theorem trip_moves {c : Env.Cfg} (hp : 2 ≤ c.points) {e : Env.Env R} {ms : List (Option Entry)} {x : R} (h : Trip c e ms x) :
    ∀ {s : Env.St} {b : Int}, Reach c e → e.states[e.cur]? = some s → s.getLast? = some b →
      (∀ y, some y ∈ ms → b.toNat ≤ y.1 ∧ y.1 < c.n ∧ y.2 < c.edges y.1) ∧
      (ms.filterMap id).Pairwise (fun y z => y.1 < z.1) := by
  have hone : ∀ {e e' : Env.Env R} {a : Nat} {j : Judge R} {r : Res R} {m : Option Entry} {s : Env.St} {b : Int}, Reach c e →
      e.states[e.cur]? = some s → s.getLast? = some b → Env.step c e a j = .ok (r, e') → moveE e e.cur r = .ok m →
      ∃ t b', e'.states[e'.cur]? = some t ∧ t.getLast? = some b' ∧ 0 ≤ b ∧ b ≤ b' ∧
        ∀ y, m = some y → y.1 = b.toNat ∧ b < b' ∧ y.1 < c.n ∧ y.2 < c.edges y.1 := by
    intro e e' a j r m s b he hs hb hx hm
    obtain ⟨g1, g2, g3, g4⟩ := step_facts hp he hx
    obtain ⟨t, b0, b', k1, k2, k3, k4, _⟩ := reach_rule hp g1 _ _ _ _ g3 (g2.states _ _ hs)
    rw [hb] at k2
    cases k2
    have hb0 : 0 ≤ b := by
      obtain ⟨b1, h1, h2⟩ := ((Env.reach_live hp he).inv.ok _ (List.mem_of_getElem? hs)).good.last
      rw [hb] at h1
      cases h1
      exact h2
    refine ⟨t, b', by rw [g4]; exact k1, k3, hb0, k4.1, ?_⟩
    intro y hy
    unfold moveE at hm
    rw [hs] at hm
    simp only [hb, Outcome.ok.injEq] at hm
    rw [hy] at hm
    split_ifs at hm with h0
    simp only [Option.some.injEq] at hm
    subst hm
    obtain ⟨q1, q2⟩ := k4.2 h0
    unfold Env.Cfg.hasEdge at q1
    simp only [Bool.and_eq_true, decide_eq_true_eq] at q1
    refine ⟨rfl, q2, ?_, ?_⟩
    · simp only; omega
    · simp only; omega
  induction h with
  | @last e e' as a j r m0 h1 h2 h3 h4 h5 =>
    intro s b he hs hb
    obtain ⟨t, b', _, _, _, _, k⟩ := hone he hs hb h3 h5
    refine ⟨?_, ?_⟩
    · intro y hy
      simp only [List.mem_singleton] at hy
      obtain ⟨q1, _, q3, q4⟩ := k y hy.symm
      exact ⟨by omega, q3, q4⟩
    · cases m0 <;> simp
  | @cons e e' as a j r m0 ms x h1 h2 h3 h4 h5 _ ih =>
    intro s b he hs hb
    obtain ⟨t, b', k1, k2, k3, k4, k⟩ := hone he hs hb h3 h5
    obtain ⟨i1, i2⟩ := ih (step_facts hp he h3).1 k1 k2
    refine ⟨?_, ?_⟩
    · intro y hy
      rcases List.mem_cons.1 hy with hy | hy
      · obtain ⟨q1, _, q3, q4⟩ := k y hy.symm
        exact ⟨by omega, q3, q4⟩
      · obtain ⟨q1, q2, q3⟩ := i1 y hy
        exact ⟨by omega, q2, q3⟩
    · cases m0 with
      | none => simpa using i2
      | some y =>
        simp only [List.filterMap_cons, id_eq, List.pairwise_cons]
        refine ⟨?_, i2⟩
        intro z hz
        obtain ⟨q1, q2, _, _⟩ := k y rfl
        obtain ⟨z', hz1, hz2⟩ := List.mem_filterMap.1 hz
        have hz2 : z' = some z := hz2
        subst hz2
        have := (i1 z hz1).1
        omega

theorem record_forward (ms : List (Option Entry)) : ∀ (pol : List Entry), pol.Pairwise (fun y z => y.1 ≤ z.1) →
    (∀ y ∈ pol, ∀ z, some z ∈ ms → y.1 ≤ z.1) → (ms.filterMap id).Pairwise (fun y z => y.1 ≤ z.1) →
    (ms.foldl record pol).Pairwise (fun y z => y.1 ≤ z.1) ∧ ∀ y ∈ ms.foldl record pol, y ∈ pol ∨ some y ∈ ms := by
  induction ms with
  | nil => intro pol h1 _ _; exact ⟨h1, fun y hy => .inl hy⟩
  | cons m ms ih =>
    intro pol h1 h2 h3
    rw [List.foldl_cons]
    cases m with
    | some x =>
      simp only [List.filterMap_cons, id_eq, List.pairwise_cons] at h3
      have hx : ∀ z, some z ∈ ms → x.1 ≤ z.1 := fun z hz => h3.1 z (List.mem_filterMap.2 ⟨_, hz, rfl⟩)
      obtain ⟨i1, i2⟩ := ih (record pol (some x)) (by
          show (pol ++ [x]).Pairwise _
          rw [List.pairwise_append]
          refine ⟨h1, List.pairwise_singleton _ _, ?_⟩
          intro y hy z hz
          simp only [List.mem_singleton] at hz
          subst hz
          exact h2 y hy _ (by simp))
        (by
          intro y hy z hz
          rcases List.mem_append.1 hy with hy | hy
          · exact h2 y hy z (List.mem_cons_of_mem _ hz)
          · simp only [List.mem_singleton] at hy
            subst hy
            exact hx z hz) h3.2
      refine ⟨i1, ?_⟩
      intro y hy
      rcases i2 y hy with hy | hy
      · rcases List.mem_append.1 hy with hy | hy
        · exact .inl hy
        · simp only [List.mem_singleton] at hy
          subst hy
          exact .inr (by simp)
      · exact .inr (List.mem_cons_of_mem _ hy)
    | none =>
      simp only [List.filterMap_cons, id_eq] at h3
      have hrec : record pol none = pol ∨ ∃ z ∈ pol, record pol none = pol ++ [z] ∧ ∀ y ∈ pol, y.1 ≤ z.1 := by
        unfold record
        cases hl : pol.getLast? with
        | none => exact .inl rfl
        | some z =>
          refine .inr ⟨z, List.mem_of_getLast? hl, rfl, ?_⟩
          intro y hy
          obtain ⟨l, rfl⟩ := List.getLast?_eq_some_iff.1 hl
          rw [List.pairwise_append] at h1
          rcases List.mem_append.1 hy with hy | hy
          · exact h1.2.2 y hy z (by simp)
          · simp only [List.mem_singleton] at hy
            rw [hy]
      rcases hrec with hrec | ⟨z, hz, hrec, hmax⟩
      · rw [hrec]
        obtain ⟨i1, i2⟩ := ih pol h1 (fun y hy z hz => h2 y hy z (List.mem_cons_of_mem _ hz)) h3
        exact ⟨i1, fun y hy => (i2 y hy).imp id (List.mem_cons_of_mem _)⟩
      · rw [hrec]
        obtain ⟨i1, i2⟩ := ih (pol ++ [z]) (by
            rw [List.pairwise_append]
            refine ⟨h1, List.pairwise_singleton _ _, ?_⟩
            intro y hy z' hz'
            simp only [List.mem_singleton] at hz'
            subst hz'
            exact hmax y hy)
          (by
            intro y hy z' hz'
            rcases List.mem_append.1 hy with hy | hy
            · exact h2 y hy z' (List.mem_cons_of_mem _ hz')
            · simp only [List.mem_singleton] at hy
              subst hy
              exact h2 _ hz z' (List.mem_cons_of_mem _ hz')) h3
        refine ⟨i1, ?_⟩
        intro y hy
        rcases i2 y hy with hy | hy
        · rcases List.mem_append.1 hy with hy | hy
          · exact .inl hy
          · simp only [List.mem_singleton] at hy
            subst hy
            exact .inl hz
        · exact .inr (List.mem_cons_of_mem _ hy)

/-- **C105, what is on a policy.**  Every entry names a candidate and one of its edges, and the candidates never go back. -/
theorem learned_entries {u : Setup R} (hp : 2 ≤ u.ec.points) (hso : Sorts u.sort) (hn : 0 < u.ec.n)
    (hm : u.qc.maxSteps = 2 * u.ec.n) {rnd : Nat → Nat → Draw} {aborted : Bool} {abort : Nat → Bool} {st : QLearn.St R} {f : Bool}
    {e : Env.Env R} (h : runE u rnd aborted abort = .ok ((st, f), e)) :
    (∀ y ∈ st.policy, y.1 < u.ec.n ∧ y.2 < u.ec.edges y.1) ∧ st.policy.Pairwise (fun y z => y.1 ≤ z.1) := by
  by_cases hpol : st.policy = []
  · rw [hpol]; simp
  · obtain ⟨he, ms, x, ht, heq, _⟩ := learned_trip_partial hp hso hn hm h (.inl hpol)
    have hr := reset_facts hp (.inr he)
    obtain ⟨_, _, h3⟩ := Env.reset_spec hp (Env.reach_live hp he).inv
    obtain ⟨k1, k2⟩ := trip_moves hp ht (s := [0]) (b := 0) hr.1 h3 rfl
    obtain ⟨r1, r2⟩ := record_forward ms [] List.Pairwise.nil (by simp) (k2.imp (fun h => le_of_lt h))
    rw [heq]
    refine ⟨?_, r1⟩
    intro y hy
    rcases r2 y hy with hy | hy
    · simp at hy
    · exact (k1 y hy).2

/-! ### Examples -/

/-- Sorting by decreasing rewards. -/
def byReward (l : List (Nat × Rat)) : List (Nat × Rat) := l.insertionSort (fun x y => y.2 ≤ x.2)

theorem byReward_sorts : Sorts byReward := by
  intro l
  refine ⟨List.perm_insertionSort _ l, ?_⟩
  have : Std.Total (fun x y : Nat × Rat => y.2 ≤ x.2) := ⟨fun x y => le_total y.2 x.2⟩
  have : IsTrans (Nat × Rat) (fun x y => y.2 ≤ x.2) := ⟨fun _ _ _ h1 h2 => le_trans h2 h1⟩
  exact List.pairwise_insertionSort _ l

/-- Two candidates with two edges each; the second edge is the better one, and taking the first edge of the second candidate is a skip. -/
def demo : Setup Rat where
  ec := ⟨2, fun _ => 2, 2, true⟩
  J e a := ⟨if a = 3 then -1 else -2 - e.states.length, decide (e.cur ≠ 0 ∧ a = 2), false, false, true⟩
  sort := byReward
  qc := ⟨9 / 10, 99 / 100, 12, 3, 4, 2⟩

def demoOut (o : Outcome ((QLearn.St Rat × Bool) × Env.Env Rat)) : Outcome (List Entry × List Rat × Bool × List Env.St) :=
  o.map fun x => (x.1.1.policy, x.1.1.scores, x.1.2, x.2.states)

/-- The better edges are offered first. -/
example : (smart demo.ec demo.J demo.sort (Env.reset demo.ec Env.Env.init)).map (fun x => (x.1, x.2.states)) =
    .ok ([3, 2], [[0], [0, 0, 1], [0, 1, 1]]) := by decide +kernel

/-- Some draws. -/
def demoDraw (k i : Nat) : Draw := ⟨decide (k % 4 = 0), if k % 3 = 0 then 0 else k + i⟩

example : demoOut (runE demo demoDraw false (fun _ => false)) =
    .ok ([(0, 1), (1, 1)], [-15, -15, -2, -2, -15, -2], true, [[0], [0, 0, 1], [0, 1, 1], [1], [1, 1, 2], [1, 0, 2]]) ∧
    demo.ec.points = 2 ∧ 0 < demo.ec.n ∧ demo.qc.maxSteps = 2 * demo.ec.n ∧ 0 < demo.qc.stop := by decide +kernel

/-- The time is up after the second episode: the policy repeats the entry of the skipped candidate. -/
example : demoOut (runE demo demoDraw false (fun k => k = 10)) =
    .ok ([(0, 0), (0, 0), (1, 0)], [-15, -15], true, [[0], [0, 0, 1], [0, 1, 1], [1], [1, 1, 2], [1, 0, 2]]) := by decide +kernel

/-- Three points of memory (`--state-size 3`), the first candidate has more edges than the others. -/
def demo3 : Setup Rat := { demo with ec := ⟨3, fun p => if p = 0 then 2 else 1, 3, true⟩, J := fun _ _ => ⟨-1, false, false, false, true⟩ }

/-- **C105 fails** with a longer memory: merely asking for the actions of the third candidate, which is done in learning, reads an edge
that does not exist. -/
theorem run_defined_fails : demoOut (runE demo3 (fun _ _ => ⟨false, 1⟩) false (fun _ => false)) = .ub ∧ Sorts demo3.sort :=
  ⟨by decide +kernel, byReward_sorts⟩

end MM.QEnv
