import Verif.Model.Decide
import Verif.Props.Env
import Verif.Proofs.LearnProc
import Mathlib.Logic.Equiv.List

/-!
# Learners on the environment work like learners on a fixed process (helper lemmas for C96)

States of the environment are numbered as they are met.  Here they are compared with the process whose states are codes of
internal states, and the programs of `Model/Decide.lean` are shown to do the same as those of `Model/Learn.lean` on it.
-/

set_option autoImplicit false
set_option linter.unusedSectionVars false

namespace MM.Decide

open MM.Env MM.Router

variable {R : Type} [CommRing R] [LinearOrder R] [IsStrictOrderedRing R]

/-- What a step amounts to, without tables. -/
def move (c : Cfg) (w : World R) (s : St) (a : Nat) : Outcome (Move R) :=
  (newState c s (action2internal a)).bind fun ns => rewardOf c s ns (action2internal a) (w s (action2internal a))

/-- Actions offered in an internal state. -/
def offer (c : Cfg) (s : St) : List Nat :=
  match s.getLast? with
  | none => [internal2action noAction]
  | some p => if p < c.n ∧ 0 < c.edges p.toNat then List.range' special (c.edges p.toNat) else [internal2action noAction]

variable {c : Cfg} {w : World R} {γ : R} {I : St → Prop}

theorem actions_eq {e : Env R} {s : St} (h : e.states[e.cur]? = some s) : actions c e = .ok (offer c s) := by
  unfold actions offer
  rw [h]
  simp only
  cases s.getLast? with
  | none => rfl
  | some p => simp only; split_ifs <;> rfl

theorem offer_ne (s : St) : offer c s ≠ [] := by
  unfold offer
  cases s.getLast? with
  | none => simp
  | some p =>
    simp only
    split_ifs with h
    · intro hc
      have := congrArg List.length hc
      simp at this
      omega
    · simp

/-- An entry tells what a move amounts to. -/
structure Tells (c : Cfg) (e : Env R) (r : Res R) (m : Move R) : Prop where
  state : e.states[r.state]? = some m.state
  action : r.action = internal2action m.action
  reward : r.reward = m.reward
  done : r.done = done c m.state

structure Sound (c : Cfg) (w : World R) (I : St → Prop) (e : Env R) : Prop where
  inv : Inv c e
  all : ∀ s ∈ e.states, I s
  agree : ∀ i a r s, e.entry i a = some r → e.states[i]? = some s → ∃ m, move c w s a = .ok m ∧ Tells c e r m

theorem Sound.at_ {e : Env R} (h : Sound c w I e) (i : Nat) : Sound c w I (at_ e i) :=
  ⟨⟨h.inv.smap, h.inv.nodup, h.inv.ok, h.inv.clen, h.inv.res⟩, h.all, fun i a r s h1 h2 => by
    obtain ⟨m, hm, ht⟩ := h.agree i a r s h1 h2
    exact ⟨m, hm, ht.1, ht.2, ht.3, ht.4⟩⟩

theorem Tells.ext {e e' : Env R} {r : Res R} {m : Move R} (h : Tells c e r m) (hx : Ext e e') : Tells c e' r m :=
  ⟨hx.states _ _ h.state, h.action, h.reward, h.done⟩

theorem Ext.at_ {e e' : Env R} (h : Ext e e') (i : Nat) : Ext e (Decide.at_ e' i) := ⟨h.states, h.cache⟩

theorem lt_of_some {α : Type} {l : List α} {i : Nat} {x : α} (h : l[i]? = some x) : i < l.length := by
  by_contra hc; rw [List.getElem?_eq_none (by omega)] at h; cases h

/-- A step in a known state. -/
theorem act_spec (hp : 2 ≤ c.points) {e : Env R} (h : Sound c w I e) {s : St} {a : Nat} {m : Move R}
    (hs : e.states[e.cur]? = some s) (hm : move c w s a = .ok m) (hI : I m.state) :
    ∃ r e', act c w e a = .ok (r, e') ∧ Sound c w I e' ∧ Ext e e' ∧ Tells c e' r m ∧ e'.entry e.cur a = some r ∧
      e'.cur = r.state := by
  unfold act
  rw [hs]
  simp only
  cases hc : cached e a with
  | some r =>
    have hst : step c e a (w s (action2internal a)) = .ok (r, at_ e r.state) := by unfold step; rw [hc]; rfl
    refine ⟨r, at_ e r.state, hst, h.at_ _, ⟨fun _ _ h => h, fun _ _ _ h => h⟩, ?_, hc, rfl⟩
    obtain ⟨m', hm', ht⟩ := h.agree _ _ _ _ hc hs
    rw [hm] at hm'
    cases hm'
    exact ⟨ht.1, ht.2, ht.3, ht.4⟩
  | none =>
    cases hx : step c e a (w s (action2internal a)) with
    | throws =>
      exfalso
      unfold step at hx
      rw [hc, hs] at hx
      simp only at hx
      unfold move at hm
      cases hn : newState c s (action2internal a) with
      | throws => rw [hn] at hm; cases hm
      | ub => rw [hn] at hm; cases hm
      | ok ns =>
        rw [hn] at hm hx
        simp only [Outcome.bind_ok] at hm hx
        rw [hm] at hx
        cases hx
    | ub =>
      exfalso
      unfold step at hx
      rw [hc, hs] at hx
      simp only at hx
      unfold move at hm
      cases hn : newState c s (action2internal a) with
      | throws => rw [hn] at hm; cases hm
      | ub => rw [hn] at hm; cases hm
      | ok ns =>
        rw [hn] at hm hx
        simp only [Outcome.bind_ok] at hm hx
        rw [hm] at hx
        cases hx
    | ok re =>
      obtain ⟨r, e'⟩ := re
      obtain ⟨hi, hext, hent, hcur, -⟩ := step_spec hp h.inv hs hx
      have hx' := hx
      unfold step at hx'
      rw [hc, hs] at hx'
      simp only at hx'
      have hm' := hm
      unfold move at hm'
      cases hn : newState c s (action2internal a) with
      | throws => rw [hn] at hm'; cases hm'
      | ub => rw [hn] at hm'; cases hm'
      | ok ns =>
        rw [hn] at hm' hx'
        simp only [Outcome.bind_ok] at hm' hx'
        rw [hm'] at hx'
        simp only [Outcome.bind_ok, Outcome.ok.injEq, Prod.mk.injEq] at hx'
        obtain ⟨hr, he⟩ := hx'
        have hsucc := rewardOf_spec hp (h.inv.ok s (List.mem_of_getElem? hs)) hn hm'
        obtain ⟨hi', hext', hst', -, hent', hlen'⟩ := intern_spec h.inv hsucc.ok
        have hcl : e.cur < (intern c e m.state).2.cache.length := by
          rw [hi'.clen]; have := lt_of_some hs; omega
        have htell : Tells c e' r m := by
          refine ⟨?_, by rw [← hr], by rw [← hr], by rw [← hr]⟩
          rw [← hr, ← he]; exact hst'
        have hall : ∀ u ∈ e'.states, I u := by
          intro u hu
          rw [← he] at hu
          have hu' : u ∈ (intern c e m.state).2.states := hu
          have : u ∈ e.states ∨ u = m.state := by
            unfold intern at hu'
            cases hlk : e.smap.lookup m.state with
            | some i => rw [hlk] at hu'; exact .inl hu'
            | none => rw [hlk] at hu'; simpa using hu'
          rcases this with h' | rfl
          · exact h.all u h'
          · exact hI
        refine ⟨r, e', rfl, ⟨hi, hall, ?_⟩, hext, htell, hent, hcur⟩
        intro i b r' t hr' ht
        have hE : e'.entry i b = if i = e.cur ∧ b = a then some r else e.entry i b := by
          rw [← he, ← hent', ← hr]
          exact entry_store _ e.cur a _ hcl i b
        rw [hE] at hr'
        split_ifs at hr' with hcond
        · obtain ⟨rfl, rfl⟩ := hcond
          cases hr'
          have := hext.states _ _ hs
          rw [ht] at this
          cases this
          exact ⟨m, hm, htell⟩
        · have hil : i < e.states.length := by
            have := h.inv.clen
            by_contra hcc
            unfold Env.entry at hr'
            rw [List.getElem?_eq_none (by omega)] at hr'
            cases hr'
          have hts : e.states[i]? = some t := by
            obtain ⟨u, hu⟩ : ∃ u, e.states[i]? = some u := ⟨_, List.getElem?_eq_getElem hil⟩
            rw [hext.states _ _ hu] at ht
            cases ht
            exact hu
          obtain ⟨m', h1, h2⟩ := h.agree i b r' t hr' hts
          exact ⟨m', h1, h2.ext hext⟩

/-- A step that is in the table. -/
theorem act_known {e : Env R} {s : St} {a : Nat} {r : Res R} (hs : e.states[e.cur]? = some s)
    (h : e.entry e.cur a = some r) : act c w e a = .ok (r, at_ e r.state) := by
  unfold act
  rw [hs]
  simp only
  unfold step
  rw [show cached e a = some r from h]
  rfl

/-! ### The process of codes -/

open Classical in
/-- States are codes of internal states; `I` holds of those that occur. -/
noncomputable def proc (c : Cfg) (w : World R) (I : St → Prop) : Learn.Proc R where
  actions n := match (Encodable.decode n : Option St) with
    | some s => offer c s
    | none => [0]
  next n a := match (Encodable.decode n : Option St) with
    | some s => (match move c w s a with | .ok m => Encodable.encode m.state | _ => 0)
    | none => 0
  reward n a := match (Encodable.decode n : Option St) with
    | some s => if I s then (match move c w s a with | .ok m => m.reward | _ => 0) else 0
    | none => 0
  done n a := match (Encodable.decode n : Option St) with
    | some s => if I s then (match move c w s a with | .ok m => done c m.state | _ => true) else true
    | none => true

theorem proc_actions (s : St) : (proc c w I).actions (Encodable.encode s) = offer c s := by
  simp only [proc, Encodable.encodek]

theorem proc_next {s : St} {a : Nat} {m : Move R} (hm : move c w s a = .ok m) :
    (proc c w I).next (Encodable.encode s) a = Encodable.encode m.state := by
  simp only [proc, Encodable.encodek, hm]

theorem proc_reward {s : St} {a : Nat} {m : Move R} (h : I s) (hm : move c w s a = .ok m) :
    (proc c w I).reward (Encodable.encode s) a = m.reward := by
  simp only [proc, Encodable.encodek, hm, h, if_true]

theorem proc_done {s : St} {a : Nat} {m : Move R} (h : I s) (hm : move c w s a = .ok m) :
    (proc c w I).done (Encodable.encode s) a = done c m.state := by
  simp only [proc, Encodable.encodek, hm, h, if_true]

theorem proc_ne (n : Nat) : (proc c w I).actions n ≠ [] := by
  simp only [proc]
  cases (Encodable.decode n : Option St) with
  | none => simp
  | some s => exact offer_ne s

/-- Code of a numbered state. -/
def code (e : Env R) (i : Nat) : Nat := Encodable.encode (e.states.getD i [])

theorem code_of {e : Env R} {i : Nat} {s : St} (h : e.states[i]? = some s) : code e i = Encodable.encode s := by
  unfold code; rw [List.getD_eq_getElem?_getD, h]; rfl

theorem code_inj {e : Env R} (h : Inv c e) {i j : Nat} {s t : St} (hi : e.states[i]? = some s) (hj : e.states[j]? = some t)
    (hc : code e i = code e j) : i = j := by
  rw [code_of hi, code_of hj] at hc
  have := Encodable.encode_injective hc
  subst this
  exact (List.getElem?_inj (lt_of_some hi) h.nodup).1 (hi.trans hj.symm)

theorem code_ext {e e' : Env R} (h : Ext e e') {i : Nat} {s : St} (hi : e.states[i]? = some s) : code e' i = code e i := by
  rw [code_of hi, code_of (h.states _ _ hi)]

theorem codes_ext {e e' : Env R} (h : Ext e e') {l : List Nat} (hl : ∀ i ∈ l, ∃ s, e.states[i]? = some s) :
    l.map (code e') = l.map (code e) :=
  List.map_congr_left fun i hi => by obtain ⟨s, hs⟩ := hl i hi; exact code_ext h hs

/-! ### Generating the states -/

structure GenOk (c : Cfg) (w : World R) (I : St → Prop) (g : Gen R) : Prop where
  sound : Sound c w I g.env
  valid : ∀ i ∈ g.states, ∃ s, g.env.states[i]? = some s
  queue : ∀ i ∈ g.queue, i ∈ g.states
  bound : ∀ i ∈ g.states, i ≤ g.highest

/-- All offered steps of a state are in the table. -/
def Known (c : Cfg) (e : Env R) (h i : Nat) : Prop :=
  ∀ t, e.states[i]? = some t → ∀ a ∈ offer c t, ∃ r, e.entry i a = some r ∧ r.state ≤ h

/-- Every offered step is defined, in all states with a certain property, which steps keep. -/
structure Defined (c : Cfg) (w : World R) (I : St → Prop) : Prop where
  start : I [0]
  ok : ∀ s, I s → Ok c s
  step : ∀ s, I s → ∀ a ∈ offer c s, ∃ m, move c w s a = .ok m ∧ I m.state

theorem look_sim (hp : 2 ≤ c.points) (hd : Defined c w I) {s : Nat} {t : St} : ∀ (as : List Nat) (g : Gen R), GenOk c w I g →
    s ∈ g.states → g.env.states[s]? = some t → g.env.cur = s → (∀ a ∈ as, a ∈ offer c t) →
    ∃ g', look c w s as g = .ok g' ∧ GenOk c w I g' ∧ Ext g.env g'.env ∧ g'.env.cur = s ∧ g.highest ≤ g'.highest ∧
      Learn.visit (proc c w I) (Encodable.encode t) as (g.states.map (code g.env), g.queue.map (code g.env)) =
        (g'.states.map (code g'.env), g'.queue.map (code g'.env)) ∧
      (∀ i ∈ g.states, i ∈ g'.states) ∧ (∀ i ∈ g'.states, i ∈ g.states ∨ i ∈ g'.queue) ∧
      (∀ i ∈ g.queue, i ∈ g'.queue) ∧
      ∀ a ∈ as, ∃ r, g'.env.entry s a = some r ∧ r.state ≤ g'.highest := by
  intro as
  induction as with
  | nil =>
    intro g hg hs ht hcur _
    exact ⟨g, rfl, hg, .refl _, hcur, Nat.le_refl _, rfl, fun _ h => h, fun _ h => .inl h, fun _ h => h, by simp⟩
  | cons a as ih =>
    intro g hg hs ht hcur ha
    have hok : I t := hg.sound.all t (List.mem_of_getElem? ht)
    obtain ⟨m, hm, hmI⟩ := hd.step t hok a (ha a (by simp))
    obtain ⟨r, e', hact, hsound, hext, htell, hent, hcur'⟩ := act_spec hp hg.sound (by rw [hcur]; exact ht) hm hmI
    rw [hcur] at hent
    have hext1 : Ext g.env (seen s g (r, e')).env := ⟨hext.states, hext.cache⟩
    have hval : ∀ i ∈ g.states, ∃ s, e'.states[i]? = some s := fun i hi => by
      obtain ⟨u, hu⟩ := hg.valid i hi; exact ⟨u, hext.states _ _ hu⟩
    have hmemc : (proc c w I).next (Encodable.encode t) a ∈ g.states.map (code g.env) ↔ r.state ∈ g.states := by
      rw [proc_next hm, ← codes_ext hext hg.valid, ← code_of htell.state]
      constructor
      · intro h
        obtain ⟨j, hj, hjc⟩ := List.mem_map.1 h
        obtain ⟨u, hu⟩ := hval j hj
        rwa [code_inj hsound.inv hu htell.state hjc] at hj
      · intro h; exact List.mem_map.2 ⟨_, h, rfl⟩
    have hcond : ((proc c w I).done (Encodable.encode t) a = false ∧ (proc c w I).next (Encodable.encode t) a ∉ g.states.map (code g.env))
        ↔ (r.done = false ∧ r.state ∉ g.states) := by
      rw [proc_done hok hm, ← htell.done, hmemc]
    have hg1 : GenOk c w I (seen s g (r, e')) := by
      refine ⟨hsound.at_ s, ?_, ?_, ?_⟩
      · intro i hi
        simp only [seen] at hi
        split_ifs at hi with hx
        · rcases List.mem_append.1 hi with hi | hi
          · exact hval i hi
          · simp at hi; subst hi; exact ⟨_, htell.state⟩
        · exact hval i hi
      · intro i hi
        simp only [seen] at hi ⊢
        split_ifs at hi ⊢ with hx
        · rcases List.mem_append.1 hi with hi | hi
          · simp [hg.queue i hi]
          · simp at hi; simp [hi]
        · exact hg.queue i hi
      · intro i hi
        have hb := hg.bound
        simp only [seen] at hi ⊢
        have : i ∈ g.states ∨ i = r.state := by
          split_ifs at hi with hx
          · simpa using hi
          · exact .inl hi
        rcases this with h | rfl
        · have := hb i h; split_ifs <;> omega
        · split_ifs <;> omega
    have hs1 : s ∈ (seen s g (r, e')).states := by simp only [seen]; split_ifs <;> simp [hs]
    obtain ⟨g', h1, h2, h3, h4, h5, h6, h7, h7', h7'', h8⟩ := ih (seen s g (r, e')) hg1 hs1 (hext.states _ _ ht) rfl
      (fun b hb => ha b (by simp [hb]))
    have hhi : g.highest ≤ (seen s g (r, e')).highest ∧ r.state ≤ (seen s g (r, e')).highest := by
      simp only [seen]; split_ifs <;> omega
    refine ⟨g', ?_, h2, hext1.trans h3, h4, by omega, ?_, ?_, ?_, ?_, ?_⟩
    · unfold look; rw [hact]; exact h1
    · rw [← h6]
      conv_lhs => unfold Learn.visit
      by_cases hx : r.done = false ∧ r.state ∉ g.states
      · rw [if_pos (hcond.2 hx)]
        have e1 : (seen s g (r, e')).states = g.states ++ [r.state] := by simp only [seen]; rw [if_pos hx]
        have e2 : (seen s g (r, e')).queue = g.queue ++ [r.state] := by simp only [seen]; rw [if_pos hx]
        rw [e1, e2, List.map_append, List.map_append, List.map_singleton]
        rw [codes_ext hext1 hg.valid, codes_ext hext1 (fun i hi => hg.valid i (hg.queue i hi)), proc_next hm,
          ← code_of (e := (seen s g (r, e')).env) htell.state]
      · rw [if_neg (fun h => hx (hcond.1 h))]
        have e1 : (seen s g (r, e')).states = g.states := by simp only [seen]; rw [if_neg hx]
        have e2 : (seen s g (r, e')).queue = g.queue := by simp only [seen]; rw [if_neg hx]
        rw [e1, e2, codes_ext hext1 hg.valid, codes_ext hext1 (fun i hi => hg.valid i (hg.queue i hi))]
    · intro i hi
      exact h7 i (by simp only [seen]; split_ifs <;> simp [hi])
    · intro i hi
      rcases h7' i hi with h | h
      · simp only [seen] at h
        split_ifs at h with hx
        · rcases List.mem_append.1 h with h | h
          · exact .inl h
          · refine .inr (h7'' i ?_)
            simp only [seen]; rw [if_pos hx]
            exact List.mem_append.2 (.inr h)
        · exact .inl h
      · exact .inr h
    · intro i hi
      exact h7'' i (by simp only [seen]; split_ifs <;> simp [hi])
    · intro b hb
      rcases List.mem_cons.1 hb with rfl | hb
      · exact ⟨r, h3.cache _ _ _ hent, by omega⟩
      · exact h8 b hb

theorem explore_sim (hp : 2 ≤ c.points) (hd : Defined c w I) : ∀ (k : Nat) (g : Gen R), GenOk c w I g →
    (∀ i ∈ g.states, i ∈ g.queue ∨ Known c g.env g.highest i) →
    ∃ o, explore c w k g = .ok o ∧
      Learn.genLoop (proc c w I) k (g.states.map (code g.env)) (g.queue.map (code g.env)) =
        o.map (fun g' => g'.states.map (code g'.env)) ∧
      ∀ g', o = some g' → GenOk c w I g' ∧ Ext g.env g'.env ∧ (∀ i ∈ g.states, i ∈ g'.states) ∧
        ∀ i ∈ g'.states, Known c g'.env g'.highest i := by
  intro k
  induction k with
  | zero => intro g _ _; exact ⟨none, rfl, rfl, by simp⟩
  | succ k ih =>
    intro g hg hk
    unfold explore
    cases hq : g.queue with
    | nil =>
      refine ⟨some g, rfl, rfl, ?_⟩
      intro g' h
      cases h
      refine ⟨hg, .refl _, fun _ h => h, fun i hi => ?_⟩
      rcases hk i hi with h | h
      · rw [hq] at h; cases h
      · exact h
    | cons s q =>
      simp only
      have hs : s ∈ g.states := hg.queue s (by rw [hq]; simp)
      obtain ⟨t, ht⟩ := hg.valid s hs
      rw [actions_eq (c := c) (e := at_ g.env s) (s := t) ht]
      simp only [Outcome.bind_ok]
      have hg0 : GenOk c w I { g with queue := q, env := at_ g.env s } :=
        ⟨hg.sound.at_ s, hg.valid, fun i hi => hg.queue i (by rw [hq]; simp [hi]), hg.bound⟩
      obtain ⟨g1, h1, h2, h3, h4, h5, h6, h7, h7', h7'', h8⟩ := look_sim hp hd (s := s) (t := t) (offer c t) _ hg0 hs ht rfl
        (fun _ h => h)
      rw [h1]
      simp only [Outcome.bind_ok]
      have hk1 : ∀ i ∈ g1.states, i ∈ g1.queue ∨ Known c g1.env g1.highest i := by
        intro i hi
        by_cases his : i = s
        · subst his
          right
          intro u hu a ha
          have : u = t := by
            have := h3.states _ _ ht
            rw [hu] at this
            exact Option.some.inj this
          subst this
          exact h8 a ha
        · rcases h7' i hi with h | h
          · rcases hk i h with h' | h'
            · rw [hq] at h'
              rcases List.mem_cons.1 h' with h' | h'
              · exact absurd h' his
              · exact .inl (h7'' i h')
            · right
              intro u hu a ha
              obtain ⟨v, hv⟩ := hg.valid i h
              have : u = v := by
                have := h3.states _ _ hv
                rw [hu] at this
                exact Option.some.inj this
              subst this
              obtain ⟨r, hr, hr'⟩ := h' u hv a ha
              exact ⟨r, h3.cache _ _ _ hr, le_trans hr' h5⟩
          · exact .inl h
      obtain ⟨o, h9, h10, h11⟩ := ih g1 h2 hk1
      refine ⟨o, h9, ?_, ?_⟩
      · rw [← h10, List.map_cons, Learn.genLoop, code_of ht, proc_actions]
        have h6' : Learn.visit (proc c w I) (Encodable.encode t) (offer c t) (g.states.map (code g.env), q.map (code g.env)) =
            (g1.states.map (code g1.env), g1.queue.map (code g1.env)) := h6
        rw [h6']
      · intro g' hg'
        obtain ⟨a1, a2, a3, a4⟩ := h11 g' hg'
        exact ⟨a1, Ext.trans ⟨h3.states, h3.cache⟩ a2, fun i hi => a3 i (h7 i hi), a4⟩

/-! ### Sweeps on a complete table -/

/-- The table is complete for the states `S`. -/
structure Full (c : Cfg) (w : World R) (I : St → Prop) (e : Env R) (S : List Nat) (h : Nat) : Prop where
  sound : Sound c w I e
  valid : ∀ i ∈ S, ∃ s, e.states[i]? = some s
  bound : ∀ i ∈ S, i ≤ h
  known : ∀ i ∈ S, Known c e h i
  closed : ∀ i ∈ S, ∀ t, e.states[i]? = some t → ∀ a ∈ offer c t, ∀ r, e.entry i a = some r → r.done = false → r.state ∈ S

/-- A vector holds the values of a function on codes. -/
def Rep (e : Env R) (S : List Nat) {α : Type} (V : List α) (W : Nat → α) : Prop := ∀ i ∈ S, V[i]? = some (W (code e i))

variable {e : Env R} {S : List Nat} {h : Nat}

theorem full_step (hF : Full c w I e S h) {i : Nat} (hi : i ∈ S) {t : St} (ht : e.states[i]? = some t) {a : Nat}
    (ha : a ∈ offer c t) : ∃ r m, move c w t a = .ok m ∧ Tells c e r m ∧ I t ∧ e.entry i a = some r ∧
      (r.done = false → r.state ∈ S) ∧ act c w (at_ e i) a = .ok (r, at_ e r.state) := by
  obtain ⟨r, hr, -⟩ := hF.known i hi t ht a ha
  obtain ⟨m, hm, htell⟩ := hF.sound.agree i a r t hr ht
  exact ⟨r, m, hm, htell, hF.sound.all t (List.mem_of_getElem? ht), hr, hF.closed i hi t ht a ha r hr,
    act_known (e := at_ e i) ht hr⟩

theorem value_sim (hF : Full c w I e S h) {V : List R} {W : Nat → R} (hV : Rep e S V W) {i : Nat} (hi : i ∈ S) {t : St}
    (ht : e.states[i]? = some t) {a : Nat} {r : Res R} {m : Move R} (hm : move c w t a = .ok m) (htell : Tells c e r m)
    (hok : I t) (hc : r.done = false → r.state ∈ S) :
    value γ V r = .ok (Learn.qval (proc c w I) γ W (Encodable.encode t) a) := by
  unfold value Learn.qval
  rw [proc_done hok hm, proc_reward hok hm, proc_next hm, ← htell.done, ← htell.reward, ← code_of htell.state]
  by_cases hd : r.done = true
  · rw [if_pos hd, if_pos hd]
  · have hd' : r.done = false := by simpa using hd
    rw [if_neg hd, if_neg hd, hV _ (hc hd')]

theorem choose_sim (hF : Full c w I e S h) {V : List R} {W : Nat → R} (hV : Rep e S V W) {i : Nat} (hi : i ∈ S) {t : St}
    (ht : e.states[i]? = some t) : ∀ (as : List Nat) (acc : Option (Nat × R)), (∀ a ∈ as, a ∈ offer c t) →
    choose c w γ V i as acc (at_ e i) =
      .ok (Learn.pickFrom (Learn.qval (proc c w I) γ W (Encodable.encode t)) acc as, at_ e i) := by
  intro as
  induction as with
  | nil => intro acc _; rfl
  | cons a as ih =>
    intro acc ha
    obtain ⟨r, m, hm, htell, hok, -, hc, hact⟩ := full_step hF hi ht (ha a (by simp))
    unfold choose
    rw [hact]
    simp only [Outcome.bind_ok]
    rw [value_sim hF hV hi ht hm htell hok hc]
    simp only [Outcome.bind_ok]
    rw [show at_ (at_ e r.state) i = at_ e i from rfl, ih _ (fun b hb => ha b (by simp [hb]))]
    rfl

theorem rep_set (hF : Full c w I e S h) {α : Type} {V : List α} {W : Nat → α} (hV : Rep e S V W) {i : Nat} (hi : i ∈ S) (x : α) :
    i < V.length ∧ Rep e S (V.set i x) (fun t => if t = code e i then x else W t) := by
  have hlt : i < V.length := lt_of_some (hV i hi)
  refine ⟨hlt, fun j hj => ?_⟩
  obtain ⟨s, hs⟩ := hF.valid i hi
  obtain ⟨u, hu⟩ := hF.valid j hj
  by_cases hij : j = i
  · subst hij; rw [List.getElem?_set_self hlt]; simp
  · have hne : code e j ≠ code e i := fun hc => hij (code_inj hF.sound.inv hu hs hc)
    rw [List.getElem?_set_ne (Ne.symm hij)]
    simp only [hne, if_false]
    exact hV j hj

theorem pick_some (γ : R) (W : Nat → R) (t : St) :
    ∃ b, Learn.pick (Learn.qval (proc c w I) γ W (Encodable.encode t)) (offer c t) = some b ∧ b.1 ∈ offer c t := by
  have key : ∀ (f : Nat → R) (as : List Nat) (acc : Nat × R), ∃ b, Learn.pickFrom f (some acc) as = some b ∧ (b.1 = acc.1 ∨ b.1 ∈ as) := by
    intro f as
    induction as with
    | nil => intro acc; exact ⟨acc, rfl, .inl rfl⟩
    | cons a as ih =>
      intro acc
      unfold Learn.pickFrom
      simp only
      split_ifs
      · obtain ⟨b, h1, h2⟩ := ih (a, f a)
        refine ⟨b, h1, ?_⟩
        rcases h2 with h2 | h2
        · right; simp [h2]
        · right; simp [h2]
      · obtain ⟨b, h1, h2⟩ := ih (acc.1, acc.2)
        refine ⟨b, h1, ?_⟩
        rcases h2 with h2 | h2
        · left; exact h2
        · right; simp [h2]
  cases has : offer c t with
  | nil => exact absurd has (offer_ne t)
  | cons a as =>
    unfold Learn.pick Learn.pickFrom
    obtain ⟨b, h1, h2⟩ := key (Learn.qval (proc c w I) γ W (Encodable.encode t)) as (a, Learn.qval (proc c w I) γ W (Encodable.encode t) a)
    refine ⟨b, h1, ?_⟩
    rcases h2 with h2 | h2
    · simp [h2]
    · simp [h2]

theorem sweep_sim (hF : Full c w I e S h) : ∀ (ss : List Nat), (∀ i ∈ ss, i ∈ S) → ∀ (V : List R) (W : Nat → R) (sum : R) (j : Nat),
    Rep e S V W → ∃ V' j', sweep c w γ ss (V, sum, at_ e j) =
        .ok (V', (Learn.viSweep (proc c w I) γ (ss.map (code e)) (W, sum)).2, at_ e j') ∧
      Rep e S V' (Learn.viSweep (proc c w I) γ (ss.map (code e)) (W, sum)).1 := by
  intro ss
  induction ss with
  | nil => intro _ V W sum j hV; exact ⟨V, j, rfl, hV⟩
  | cons s ss ih =>
    intro hss V W sum j hV
    have hs : s ∈ S := hss s (by simp)
    obtain ⟨t, ht⟩ := hF.valid s hs
    obtain ⟨b, hb, -⟩ := pick_some (c := c) (w := w) (I := I) γ W t
    unfold sweep
    simp only
    rw [show at_ (at_ e j) s = at_ e s from rfl, actions_eq (c := c) (e := at_ e s) (s := t) ht]
    simp only [Outcome.bind_ok]
    rw [choose_sim hF hV hs ht _ _ (fun _ h => h)]
    simp only [Outcome.bind_ok]
    rw [show Learn.pickFrom (Learn.qval (proc c w I) γ W (Encodable.encode t)) none (offer c t) = some b from hb]
    obtain ⟨hlt, hV'⟩ := rep_set hF hV hs b.2
    simp only
    rw [if_pos hlt]
    obtain ⟨V', j', h1, h2⟩ := ih (fun i hi => hss i (by simp [hi])) (V.set s b.2) (Learn.upd W (code e s) b.2) (sum + b.2) s hV'
    have hv : Learn.viSweep (proc c w I) γ ((s :: ss).map (code e)) (W, sum) =
        Learn.viSweep (proc c w I) γ (ss.map (code e)) (Learn.upd W (code e s) b.2, sum + b.2) := by
      rw [List.map_cons]
      conv_lhs => unfold Learn.viSweep
      rw [code_of ht, proc_actions, hb]
    rw [hv]
    exact ⟨V', j', h1, h2⟩

theorem iterate_sim (f : Vals R → Outcome (Vals R)) (F : (Nat → R) → (Nat → R) × R) (th : R)
    (hf : ∀ V W j, Rep e S V W → ∃ V' j', f (V, 0, at_ e j) = .ok (V', (F W).2, at_ e j') ∧ Rep e S V' (F W).1) :
    ∀ (k : Nat) (V : List R) (W : Nat → R) (v : R) (d : Option R) (j : Nat), Rep e S V W →
    (Learn.untilSmall F th k W v d = none ∧ iterate f th k V v d (at_ e j) = .ok none) ∨
    ∃ W' V' j', Learn.untilSmall F th k W v d = some W' ∧ iterate f th k V v d (at_ e j) = .ok (some (V', at_ e j')) ∧
      Rep e S V' W' := by
  intro k
  induction k with
  | zero => intro V W v d j _; exact .inl ⟨rfl, rfl⟩
  | succ k ih =>
    intro V W v d j hV
    unfold Learn.untilSmall iterate
    by_cases hs : Learn.settled th d = true
    · rw [if_pos hs, if_pos hs]
      exact .inr ⟨W, V, j, rfl, rfl, hV⟩
    · rw [if_neg hs, if_neg hs]
      obtain ⟨V', j', h1, h2⟩ := hf V W j hV
      rw [h1]
      simp only [Outcome.bind_ok]
      exact ih V' (F W).1 (F W).2 _ j' h2

/-! ### The policy -/

/-- What is noted for a step. -/
def told (c : Cfg) (w : World R) (x : Nat × Nat) : Option Entry :=
  match (Encodable.decode x.1 : Option St) with
  | some s => (match move c w s x.2 with
    | .ok m => if 0 ≤ m.action then some ((s.getLastD 0).toNat, m.action.toNat) else none
    | _ => none)
  | none => none

theorem move_action {s : St} {a : Nat} {m : Move R} (hm : move c w s a = .ok m) : -2 ≤ m.action := by
  have ha : -2 ≤ action2internal a := by
    unfold action2internal noAction skipAction; split_ifs <;> omega
  unfold move at hm
  cases hn : newState c s (action2internal a) with
  | throws => rw [hn] at hm; cases hm
  | ub => rw [hn] at hm; cases hm
  | ok ns =>
    rw [hn] at hm
    simp only [Outcome.bind_ok] at hm
    have hpc : ∀ (j : Judge R) (x y : Move R), prevCheck c s j x = .ok y → y.action = x.action := by
      intro j x y hxy
      unfold prevCheck at hxy
      split_ifs at hxy <;> cases hxy <;> rfl
    unfold rewardOf at hm
    split_ifs at hm with h1 h2 h3 h4 h5 h6 h7 h8
    · cases hm; exact ha
    · cases hm; exact Int.le_refl _
    · cases hm; exact ha
    · rw [hpc _ _ _ hm]; exact Int.le_refl _
    · rw [hpc _ _ _ hm]; exact ha
    · cases hm; exact ha
    · cases hm; exact ha

theorem noted_sim {e : Env R} {i : Nat} {t : St} (ht : e.states[i]? = some t) (hok : Ok c t) {a : Nat} {r : Res R} {m : Move R}
    (hm : move c w t a = .ok m) (htell : Tells c e r m) (pol : List Entry) :
    noted e i r pol = .ok (record pol (told c w (Encodable.encode t, a))) := by
  obtain ⟨b, hb, -⟩ := hok.good.last
  unfold noted told
  rw [ht, htell.action, decode_encode _ (move_action hm)]
  simp only [Option.bind_some, hb, Encodable.encodek, hm, getLastD_of hb]

theorem follow_sim (hF : Full c w I e S h) {V : List R} {W : Nat → R} (hV : Rep e S V W) : ∀ (k i : Nat), i ∈ S →
    ∀ pol : List Entry, follow c w γ V k pol (at_ e i) =
      .ok ((Learn.viExtract (proc c w I) γ W k (code e i)).map (fun l => (l.map (told c w)).foldl record pol)) := by
  intro k
  induction k with
  | zero => intro i _ pol; rfl
  | succ k ih =>
    intro i hi pol
    obtain ⟨t, ht⟩ := hF.valid i hi
    obtain ⟨b, hb, hbm⟩ := pick_some (c := c) (w := w) (I := I) γ W t
    unfold follow
    rw [actions_eq (c := c) (e := at_ e i) (s := t) ht]
    simp only [Outcome.bind_ok]
    rw [show (at_ e i).cur = i from rfl, choose_sim hF hV hi ht _ _ (fun _ h => h)]
    simp only [Outcome.bind_ok]
    rw [show Learn.pickFrom (Learn.qval (proc c w I) γ W (Encodable.encode t)) none (offer c t) = some b from hb]
    obtain ⟨r, m, hm, htell, hok, -, hc, hact⟩ := full_step hF hi ht hbm
    simp only
    rw [hact]
    simp only [Outcome.bind_ok]
    rw [noted_sim (e := at_ e r.state) ht (hF.sound.inv.ok t (List.mem_of_getElem? ht)) hm ⟨htell.1, htell.2, htell.3, htell.4⟩]
    simp only [Outcome.bind_ok]
    conv_rhs => unfold Learn.viExtract
    rw [code_of ht, proc_actions, hb]
    simp only
    rw [proc_done hok hm, ← htell.done, proc_next hm, ← code_of htell.state]
    by_cases hd : r.done = true
    · rw [if_pos hd, if_pos hd]; rfl
    · rw [if_neg hd, if_neg hd, ih _ (hc (by simpa using hd)), Option.map_map]
      rfl

/-! ### Value iteration -/

theorem begin_ok (hp : 2 ≤ c.points) (hd : Defined c w I) : GenOk c w I (begin c) ∧ (begin c : Gen R).env.states[(begin c : Gen R).env.cur]? = some [0] := by
  obtain ⟨h1, -, h3⟩ := reset_spec hp (inv_init (c := c) (R := R))
  refine ⟨⟨⟨h1, ?_, ?_⟩, ?_, ?_, ?_⟩, h3⟩
  · intro s hs
    simp [begin, reset, intern, Env.init] at hs
    exact hs ▸ hd.start
  · intro i a r s hr hs
    exfalso
    have : (reset c (Env.init : Env R)).entry i a = none := by
      have h0 := (intern_spec (inv_init (c := c) (R := R)) (start_ok hp)).2.2.2.2.1 i a
      have : (reset c (Env.init : Env R)).entry i a = (intern c (Env.init : Env R) [0]).2.entry i a := rfl
      rw [this, h0]; rfl
    rw [show (begin c : Gen R).env = reset c Env.init from rfl, this] at hr
    cases hr
  · intro i hi
    simp only [begin, List.mem_singleton] at hi
    subst hi
    exact ⟨_, h3⟩
  · intro i hi; exact hi
  · intro i hi
    simp only [begin, List.mem_singleton] at hi
    subst hi
    exact Nat.le_refl _

/-- The generated table is complete. -/
theorem full_of_explore (hp : 2 ≤ c.points) (hd : Defined c w I) (k : Nat) :
    ∃ o, explore c w k (begin c : Gen R) = .ok o ∧
      Learn.generate (proc c w I) k (Encodable.encode ([0] : St)) = o.map (fun g => g.states.map (code g.env)) ∧
      ∀ g, o = some g → Full c w I g.env g.states g.highest ∧
        ∃ i ∈ g.states, g.env.states[i]? = some [0] := by
  obtain ⟨hb, hb0⟩ := begin_ok hp hd
  obtain ⟨o, h1, h2, h3⟩ := explore_sim hp hd k (begin c) hb (fun i hi => .inl hi)
  have hcode : (begin c : Gen R).states.map (code (begin c : Gen R).env) = [Encodable.encode ([0] : St)] := by
    have : (begin c : Gen R).states = [(begin c : Gen R).env.cur] := rfl
    rw [this, List.map_singleton, code_of hb0]
  have hcode' : (begin c : Gen R).queue.map (code (begin c : Gen R).env) = [Encodable.encode ([0] : St)] := hcode
  rw [hcode, hcode'] at h2
  refine ⟨o, h1, h2, ?_⟩
  intro g hg
  subst hg
  obtain ⟨a1, a2, a3, a4⟩ := h3 g rfl
  have hcl := (Learn.generate_spec (show Learn.generate (proc c w I) k _ = some (g.states.map (code g.env)) from h2)).2.1
  refine ⟨⟨a1.sound, a1.valid, a1.bound, a4, ?_⟩, (begin c : Gen R).env.cur, a3 _ (by simp [begin]), a2.states _ _ hb0⟩
  intro i hi t ht a ha r hr hrd
  obtain ⟨m, hm, htell⟩ := a1.sound.agree i a r t hr ht
  have hok := a1.sound.all t (List.mem_of_getElem? ht)
  have := hcl (code g.env i) (List.mem_map.2 ⟨i, hi, rfl⟩) a (by rw [code_of ht, proc_actions]; exact ha)
    (by rw [code_of ht, proc_done hok hm, ← htell.done]; exact hrd)
  rw [code_of ht, proc_next hm, ← code_of htell.state] at this
  obtain ⟨j, hj, hjc⟩ := List.mem_map.1 this
  obtain ⟨u, hu⟩ := a1.valid j hj
  rwa [code_inj a1.sound.inv hu htell.state hjc] at hj

theorem reset_known (hI : Inv c e) {i : Nat} (hi : e.states[i]? = some [0]) (j : Nat) : reset c (at_ e j) = at_ e i := by
  have hl := lookup_zipIdx e.states hI.nodup [0] 0
  rw [← hI.smap, if_pos (List.mem_of_getElem? hi)] at hl
  have hidx : e.states.idxOf [0] = i := by
    have hm := List.mem_of_getElem? hi
    have h1 : e.states[e.states.idxOf [0]]? = some [0] := by
      rw [List.getElem?_eq_getElem (List.idxOf_lt_length_iff.2 hm), List.getElem_idxOf]
    exact (List.getElem?_inj (List.idxOf_lt_length_iff.2 hm) hI.nodup).1 (h1.trans hi.symm)
  rw [hidx, Nat.zero_add] at hl
  unfold reset intern
  rw [show (at_ e j).smap = e.smap from rfl, hl]
  rfl

theorem rep_zero (hF : Full c w I e S h) {α : Type} (x : α) : Rep e S (List.replicate (h + 1) x) (fun _ => x) := by
  intro i hi
  have := hF.bound i hi
  rw [List.getElem?_replicate, if_pos (by omega)]

/-- Value iteration on the environment is value iteration on the process of codes. -/
theorem valueIteration_refines (hp : 2 ≤ c.points) (hd : Defined c w I) (γ th : R) (k : Nat) :
    valueIteration c w γ th k =
      .ok ((Learn.valueIteration (proc c w I) γ th k (Encodable.encode ([0] : St))).map
        (fun l => policyOf (l.map (told c w)))) := by
  obtain ⟨o, h1, h2, h3⟩ := full_of_explore hp hd k
  unfold valueIteration Learn.valueIteration
  rw [h1, h2]
  simp only [Outcome.bind_ok]
  cases o with
  | none => rfl
  | some g =>
    obtain ⟨hF, i, hi, hi0⟩ := h3 g rfl
    simp only [Option.map_some, Option.bind_some]
    have hrep := rep_zero hF (0 : R)
    have hit := iterate_sim (e := g.env) (S := g.states) (sweep c w γ g.states.reverse)
      (fun V => Learn.viSweep (proc c w I) γ (g.states.map (code g.env)).reverse (V, 0)) th (by
        intro V W j hV
        have := sweep_sim (γ := γ) hF g.states.reverse (fun i hi => by simpa using hi) V W 0 j hV
        rwa [List.map_reverse] at this) k _ _ 0 none g.env.cur hrep
    rw [show at_ g.env g.env.cur = g.env from rfl] at hit
    rcases hit with ⟨e1, e2⟩ | ⟨W', V', j', e1, e2, e3⟩
    · rw [e1, e2]; rfl
    · rw [e1, e2]
      simp only [Outcome.bind_ok, Option.bind_some]
      rw [reset_known hF.sound.inv hi0, follow_sim hF e3 k i hi, code_of hi0]
      rfl

/-! ### Policy iteration -/

theorem rep_congr {α : Type} {V : List α} {W W' : Nat → α} (hV : Rep e S V W) (hw : ∀ i ∈ S, W (code e i) = W' (code e i)) :
    Rep e S V W' := fun i hi => by rw [hV i hi, hw i hi]

theorem code_mem (hF : Full c w I e S h) {ss : List Nat} (hss : ∀ i ∈ ss, i ∈ S) {i : Nat} (hi : i ∈ S) :
    code e i ∈ ss.map (code e) ↔ i ∈ ss := by
  constructor
  · intro hm
    obtain ⟨j, hj, hjc⟩ := List.mem_map.1 hm
    obtain ⟨s, hs⟩ := hF.valid i hi
    obtain ⟨u, hu⟩ := hF.valid j (hss j hj)
    rwa [code_inj hF.sound.inv hu hs hjc] at hj
  · intro hm; exact List.mem_map.2 ⟨i, hm, rfl⟩

/-- The policy takes offered actions. -/
def Offered (c : Cfg) (e : Env R) (S : List Nat) (Q : Nat → Nat) : Prop :=
  ∀ i ∈ S, ∀ t, e.states[i]? = some t → Q (code e i) ∈ offer c t

theorem initial_sim (hF : Full c w I e S h) : ∀ (ss : List Nat), (∀ i ∈ ss, i ∈ S) → ∀ (P : List Nat) (Q : Nat → Nat) (j : Nat),
    Rep e S P Q → ∃ P' j', initial c ss (P, at_ e j) = .ok (P', at_ e j') ∧
      Rep e S P' (fun n => if n ∈ ss.map (code e) then (((proc c w I).actions n).head?).getD 0 else Q n) := by
  intro ss
  induction ss with
  | nil => intro _ P Q j hP; exact ⟨P, j, rfl, rep_congr hP (by simp)⟩
  | cons s ss ih =>
    intro hss P Q j hP
    have hs : s ∈ S := hss s (by simp)
    obtain ⟨t, ht⟩ := hF.valid s hs
    unfold initial
    simp only
    rw [show at_ (at_ e j) s = at_ e s from rfl, actions_eq (c := c) (e := at_ e s) (s := t) ht]
    simp only [Outcome.bind_ok]
    cases has : offer c t with
    | nil => exact absurd has (offer_ne t)
    | cons a as =>
      obtain ⟨hlt, hP'⟩ := rep_set hF hP hs a
      simp only
      rw [if_pos hlt]
      obtain ⟨P', j', h1, h2⟩ := ih (fun i hi => hss i (by simp [hi])) _ _ s hP'
      refine ⟨P', j', h1, rep_congr h2 ?_⟩
      intro i hi
      simp only [List.map_cons, List.mem_cons]
      by_cases h3 : code e i ∈ ss.map (code e)
      · rw [if_pos h3, if_pos (.inr h3)]
      · rw [if_neg h3]
        by_cases h4 : code e i = code e s
        · rw [if_pos h4, if_pos (.inl h4), h4, code_of ht, proc_actions, has]; rfl
        · rw [if_neg h4, if_neg (by simp only [h4, h3, or_self, not_false_eq_true])]

theorem evaluate_sim (hF : Full c w I e S h) {P : List Nat} {Q : Nat → Nat} (hP : Rep e S P Q) (hQ : Offered c e S Q) :
    ∀ (ss : List Nat), (∀ i ∈ ss, i ∈ S) → ∀ (V : List R) (W : Nat → R) (sum : R) (j : Nat),
    Rep e S V W → ∃ V' j', evaluate c w γ P ss (V, sum, at_ e j) =
        .ok (V', (Learn.piSweep (proc c w I) γ Q (ss.map (code e)) (W, sum)).2, at_ e j') ∧
      Rep e S V' (Learn.piSweep (proc c w I) γ Q (ss.map (code e)) (W, sum)).1 := by
  intro ss
  induction ss with
  | nil => intro _ V W sum j hV; exact ⟨V, j, rfl, hV⟩
  | cons s ss ih =>
    intro hss V W sum j hV
    have hs : s ∈ S := hss s (by simp)
    obtain ⟨t, ht⟩ := hF.valid s hs
    obtain ⟨r, m, hm, htell, hok, -, hc, hact⟩ := full_step hF hs ht (hQ s hs t ht)
    unfold evaluate
    rw [hP s hs]
    simp only
    rw [show at_ (at_ e j) s = at_ e s from rfl, hact]
    simp only [Outcome.bind_ok]
    rw [value_sim hF hV hs ht hm htell hok hc]
    simp only [Outcome.bind_ok]
    obtain ⟨hlt, hV'⟩ := rep_set hF hV hs (Learn.qval (proc c w I) γ W (Encodable.encode t) (Q (code e s)))
    rw [if_pos hlt]
    obtain ⟨V', j', h1, h2⟩ := ih (fun i hi => hss i (by simp [hi])) _ _
      (sum + Learn.qval (proc c w I) γ W (Encodable.encode t) (Q (code e s))) s hV'
    refine ⟨V', j', ?_, ?_⟩
    · rw [show at_ (at_ e r.state) s = at_ e s from rfl, h1, List.map_cons]
      conv_rhs => unfold Learn.piSweep
      rw [code_of ht]
      rfl
    · rw [List.map_cons]
      conv in Learn.piSweep _ _ _ (_ :: _) _ => unfold Learn.piSweep
      rw [code_of ht] at h2 ⊢
      exact h2

theorem improved_offer (W : Nat → R) (t : St) (old : Nat) :
    ∃ b, Learn.pick (Learn.qval (proc c w I) γ W (Encodable.encode t)) (offer c t) = some b ∧ b.1 ∈ offer c t ∧
      Learn.improved (proc c w I) γ W (Encodable.encode t) old = b.1 := by
  obtain ⟨b, hb, hbm⟩ := pick_some (c := c) (w := w) (I := I) γ W t
  refine ⟨b, hb, hbm, ?_⟩
  unfold Learn.improved
  rw [proc_actions, hb]

theorem improve_sim (hF : Full c w I e S h) {V : List R} {W : Nat → R} (hV : Rep e S V W) (Q0 : Nat → Nat) :
    ∀ (ss : List Nat), (∀ i ∈ ss, i ∈ S) → ss.Nodup → ∀ (P : List Nat) (Q : Nat → Nat) (b : Bool) (j : Nat), Rep e S P Q →
    (∀ i ∈ ss, Q (code e i) = Q0 (code e i)) → ∃ P' b' j', improve c w γ V ss (P, b, at_ e j) = .ok (P', b', at_ e j') ∧
      (b' = true ↔ b = true ∧ ∀ i ∈ ss, Learn.improved (proc c w I) γ W (code e i) (Q0 (code e i)) = Q0 (code e i)) ∧
      Rep e S P' (fun n => if n ∈ ss.map (code e) then Learn.improved (proc c w I) γ W n (Q0 n) else Q n) := by
  intro ss
  induction ss with
  | nil => intro _ _ P Q b j hP _; exact ⟨P, b, j, rfl, by simp, rep_congr hP (by simp)⟩
  | cons s ss ih =>
    intro hss hn P Q b j hP h0
    rw [List.nodup_cons] at hn
    have hs : s ∈ S := hss s (by simp)
    obtain ⟨t, ht⟩ := hF.valid s hs
    obtain ⟨m, hm, -, hmi⟩ := improved_offer (c := c) (w := w) (I := I) (γ := γ) W t (Q0 (code e s))
    unfold improve
    simp only
    rw [hP s hs]
    simp only
    rw [show at_ (at_ e j) s = at_ e s from rfl, actions_eq (c := c) (e := at_ e s) (s := t) ht]
    simp only [Outcome.bind_ok]
    rw [choose_sim hF hV hs ht _ _ (fun _ h => h)]
    simp only [Outcome.bind_ok]
    rw [show Learn.pickFrom (Learn.qval (proc c w I) γ W (Encodable.encode t)) none (offer c t) = some m from hm]
    simp only
    obtain ⟨-, hP'⟩ := rep_set hF hP hs m.1
    obtain ⟨P', b', j', h1, h2, h3⟩ := ih (fun i hi => hss i (by simp [hi])) hn.2 (P.set s m.1) _ (b && decide (m.1 = Q (code e s))) s
      hP' (by
        intro i hi
        have hne : code e i ≠ code e s := by
          intro hc
          obtain ⟨u, hu⟩ := hF.valid i (hss i (by simp [hi]))
          exact hn.1 (code_inj hF.sound.inv hu ht hc ▸ hi)
        simp only [hne, if_false]
        exact h0 i (by simp [hi]))
    refine ⟨P', b', j', h1, ?_, rep_congr h3 ?_⟩
    · rw [h2, h0 s (by simp)]
      simp only [Bool.and_eq_true, decide_eq_true_eq, List.mem_cons, forall_eq_or_imp, code_of ht] at hmi ⊢
      rw [hmi]
      tauto
    · intro i hi
      simp only [List.map_cons, List.mem_cons]
      by_cases h4 : code e i ∈ ss.map (code e)
      · rw [if_pos h4, if_pos (.inr h4)]
      · rw [if_neg h4]
        by_cases h5 : code e i = code e s
        · rw [if_pos h5, if_pos (.inl h5), h5, ← hmi, code_of ht]
        · rw [if_neg h5, if_neg (by simp only [h5, h4, or_self, not_false_eq_true])]

theorem offered_improve (hF : Full c w I e S h) {W : Nat → R} {Q Q' : Nat → Nat}
    (hq : ∀ i ∈ S, Q' (code e i) = Learn.improved (proc c w I) γ W (code e i) (Q (code e i))) : Offered c e S Q' := by
  intro i hi t ht
  obtain ⟨b, -, hb, hb'⟩ := improved_offer (c := c) (w := w) (I := I) (γ := γ) W t (Q (code e i))
  rw [hq i hi]
  rw [code_of ht] at hb' ⊢
  rw [hb']
  exact hb

theorem rounds_sim (hF : Full c w I e S h) (hn : S.Nodup) (th : R) (evals : Nat) : ∀ (k : Nat) (V : List R) (W : Nat → R) (P : List Nat)
    (Q : Nat → Nat) (j : Nat), Rep e S V W → Rep e S P Q → Offered c e S Q →
    (Learn.piLoop (proc c w I) γ th (S.map (code e)) evals k W Q = none ∧ rounds c w γ th S evals k V P (at_ e j) = .ok none) ∨
    ∃ x P' j', Learn.piLoop (proc c w I) γ th (S.map (code e)) evals k W Q = some x ∧
      rounds c w γ th S evals k V P (at_ e j) = .ok (some (P', at_ e j')) ∧ Rep e S P' x.2 ∧ Offered c e S x.2 := by
  intro k
  induction k with
  | zero => intro V W P Q j _ _ _; exact .inl ⟨rfl, rfl⟩
  | succ k ih =>
    intro V W P Q j hV hP hQ
    unfold Learn.piLoop rounds
    have hit := iterate_sim (e := e) (S := S) (evaluate c w γ P S.reverse)
      (fun V => Learn.piSweep (proc c w I) γ Q (S.map (code e)).reverse (V, 0)) th (by
        intro V W j hV
        have := evaluate_sim (γ := γ) hF hP hQ S.reverse (fun i hi => by simpa using hi) V W 0 j hV
        rwa [List.map_reverse] at this) evals V W 0 none j hV
    rcases hit with ⟨e1, e2⟩ | ⟨W', V', j', e1, e2, e3⟩
    · rw [e1, e2]; exact .inl ⟨rfl, rfl⟩
    · rw [e1, e2]
      simp only [Outcome.bind_ok, Option.bind_some]
      obtain ⟨P', b', j2, h1, h2, h3⟩ := improve_sim (γ := γ) hF e3 Q S.reverse (fun i hi => by simpa using hi)
        (List.nodup_reverse.2 hn) P Q true j' hP (fun _ _ => rfl)
      rw [h1]
      simp only [Outcome.bind_ok]
      have hrep : Rep e S P' (Learn.improve (proc c w I) γ W' (S.map (code e)) Q).1 := by
        refine rep_congr h3 fun i hi => ?_
        simp only [Learn.improve, List.map_reverse, List.mem_reverse]
      have hoff : Offered c e S (Learn.improve (proc c w I) γ W' (S.map (code e)) Q).1 := by
        refine offered_improve (γ := γ) hF (W := W') (Q := Q) fun i hi => ?_
        simp only [Learn.improve]
        rw [if_pos (List.mem_map.2 ⟨i, hi, rfl⟩)]
      have hst : (Learn.improve (proc c w I) γ W' (S.map (code e)) Q).2 = b' := by
        rw [Bool.eq_iff_iff, h2]
        simp only [Learn.improve, decide_eq_true_eq, List.mem_map, forall_exists_index, and_imp, forall_apply_eq_imp_iff₂, List.mem_reverse, true_and]
      rw [hst]
      by_cases hb : b' = true
      · rw [if_pos hb, if_pos hb]
        exact .inr ⟨_, P', j2, rfl, rfl, hrep, hoff⟩
      · rw [if_neg hb, if_neg hb]
        exact ih V' W' P' _ j2 e3 hrep hoff

theorem obey_sim (hF : Full c w I e S h) {P : List Nat} {Q : Nat → Nat} (hP : Rep e S P Q) (hQ : Offered c e S Q) : ∀ (k i : Nat),
    i ∈ S → ∀ pol : List Entry, obey c w P k pol (at_ e i) =
      .ok ((Learn.piExtract (proc c w I) Q k (code e i)).map (fun l => (l.map (told c w)).foldl record pol)) := by
  intro k
  induction k with
  | zero => intro i _ pol; rfl
  | succ k ih =>
    intro i hi pol
    obtain ⟨t, ht⟩ := hF.valid i hi
    unfold obey
    rw [actions_eq (c := c) (e := at_ e i) (s := t) ht]
    simp only [Outcome.bind_ok]
    rw [if_neg (by simpa using offer_ne t), show (at_ e i).cur = i from rfl, hP i hi]
    obtain ⟨r, m, hm, htell, hok, -, hc, hact⟩ := full_step hF hi ht (hQ i hi t ht)
    simp only
    rw [hact]
    simp only [Outcome.bind_ok]
    rw [noted_sim (e := at_ e r.state) ht (hF.sound.inv.ok t (List.mem_of_getElem? ht)) hm ⟨htell.1, htell.2, htell.3, htell.4⟩]
    simp only [Outcome.bind_ok]
    conv_rhs => unfold Learn.piExtract
    rw [if_neg (proc_ne _)]
    rw [code_of ht] at hm ⊢
    rw [proc_done hok hm, ← htell.done, proc_next hm, ← code_of htell.state]
    by_cases hd : r.done = true
    · rw [if_pos hd, if_pos hd]; rfl
    · rw [if_neg hd, if_neg hd, ih _ (hc (by simpa using hd)), Option.map_map]
      rfl

/-- Policy iteration on the environment is policy iteration on the process of codes. -/
theorem policyIteration_refines (hp : 2 ≤ c.points) (hd : Defined c w I) (γ th : R) (k : Nat) :
    policyIteration c w γ th k =
      .ok ((Learn.policyIteration (proc c w I) γ th k (Encodable.encode ([0] : St))).map
        (fun l => policyOf (l.map (told c w)))) := by
  obtain ⟨o, h1, h2, h3⟩ := full_of_explore hp hd k
  unfold policyIteration Learn.policyIteration
  rw [h1, h2]
  simp only [Outcome.bind_ok]
  cases o with
  | none => rfl
  | some g =>
    obtain ⟨hF, i, hi, hi0⟩ := h3 g rfl
    have hn : g.states.Nodup := by
      have := (Learn.generate_spec (show Learn.generate (proc c w I) k _ = some (g.states.map (code g.env)) from h2)).1
      exact this.of_map _
    simp only [Option.map_some, Option.bind_some]
    obtain ⟨P, j, hP, hPr⟩ := initial_sim hF g.states.reverse (fun i hi => by simpa using hi) _ _ g.env.cur (rep_zero hF (0 : Nat))
    rw [show at_ g.env g.env.cur = g.env from rfl] at hP
    rw [hP]
    simp only [Outcome.bind_ok]
    have hrep : Rep g.env g.states P (Learn.firstPolicy (proc c w I) (g.states.map (code g.env))) := by
      refine rep_congr hPr fun i hi => ?_
      simp only [Learn.firstPolicy, List.map_reverse, List.mem_reverse]
    have hoff : Offered c g.env g.states (Learn.firstPolicy (proc c w I) (g.states.map (code g.env))) := by
      intro i hi t ht
      simp only [Learn.firstPolicy]
      rw [if_pos (List.mem_map.2 ⟨i, hi, rfl⟩), code_of ht, proc_actions]
      cases has : offer c t with
      | nil => exact absurd has (offer_ne t)
      | cons a as => simp
    rcases rounds_sim (γ := γ) hF hn th k k _ _ P _ j (rep_zero hF (0 : R)) hrep hoff with ⟨e1, e2⟩ | ⟨x, P', j', e1, e2, e3, e4⟩
    · rw [e1, e2]; rfl
    · rw [e1, e2]
      simp only [Outcome.bind_ok, Option.bind_some]
      rw [reset_known hF.sound.inv hi0, obey_sim hF e3 e4 k i hi, code_of hi0]
      rfl

/-! ### The process comes to an end -/

/-- Rank of a code. -/
def rank (c : Cfg) (n : Nat) : Nat :=
  match (Encodable.decode n : Option St) with
  | some s => (mu c s).toNat
  | none => 0

theorem move_succ (hp : 2 ≤ c.points) {s : St} {a : Nat} {m : Move R} (h : Ok c s) (hm : move c w s a = .ok m) : Succ c s m.state := by
  unfold move at hm
  cases hn : newState c s (action2internal a) with
  | throws => rw [hn] at hm; cases hm
  | ub => rw [hn] at hm; cases hm
  | ok ns =>
    rw [hn] at hm
    exact rewardOf_spec hp h hn hm

theorem proc_acyclic (hp : 2 ≤ c.points) (hd : Defined c w I) : Learn.Acyclic (proc c w I) (rank c) := by
  intro n a ha hdn
  simp only [proc] at ha hdn
  unfold rank
  cases hs : (Encodable.decode n : Option St) with
  | none => rw [hs] at hdn; cases hdn
  | some s =>
    rw [hs] at ha hdn
    simp only at ha hdn
    by_cases hI : I s
    · rw [if_pos hI] at hdn
      obtain ⟨m, hm, -⟩ := hd.step s hI a ha
      rw [hm] at hdn
      simp only at hdn
      have hsucc := move_succ hp (hd.ok s hI) hm
      have hnext : (proc c w I).next n a = Encodable.encode m.state := by simp only [proc, hs, hm]
      rw [hnext, Encodable.encodek]
      simp only
      rcases hsucc.dec with h | h
      · rw [hdn] at h; cases h
      · have h0 : 0 < mu c m.state := by
          unfold done at hdn
          unfold mu
          simp only [decide_eq_false_iff_not] at hdn
          omega
        omega
    · rw [if_neg hI] at hdn; cases hdn

theorem proc_nonpos (hd : Defined c w I)
    (hr : ∀ s, I s → ∀ a m, move c w s a = .ok m → m.reward ≤ 0) (n a : Nat) : (proc c w I).reward n a ≤ 0 := by
  simp only [proc]
  cases hs : (Encodable.decode n : Option St) with
  | none => exact le_refl _
  | some s =>
    simp only
    split_ifs with hI
    · cases hm : move c w s a with
      | ok m => exact hr s hI a m hm
      | throws => exact le_refl _
      | ub => exact le_refl _
    · exact le_refl _

end MM.Decide
