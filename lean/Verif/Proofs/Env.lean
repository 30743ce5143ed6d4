import Verif.Model.Env
import Mathlib.Data.List.Nodup
import Mathlib.Tactic.SplitIfs

/-! # Invariants of the environment (helper lemmas for C14, C15) -/

set_option autoImplicit false
set_option linter.unusedSectionVars false

namespace MM.Env

/-! ### Shape of internal states -/

/-- Alternating positions and actions; every remembered candidate action is one of the edges of its candidate. -/
inductive Good (c : Cfg) : St → Prop
  | single (p : Int) : 0 ≤ p → Good c [p]
  | cons (p a : Int) (s : St) : 0 ≤ p → (0 ≤ a → c.hasEdge p a = true) → Good c s → Good c (p :: a :: s)

variable {c : Cfg}

theorem Good.ne_nil {s : St} (h : Good c s) : s ≠ [] := by cases h <;> simp

theorem Good.odd {s : St} (h : Good c s) : s.length % 2 = 1 := by
  induction h with
  | single p hp => rfl
  | cons p a s hp ha hs ih => simp only [List.length_cons]; omega

theorem Good.last {s : St} (h : Good c s) : ∃ b, s.getLast? = some b ∧ 0 ≤ b := by
  induction h with
  | single p hp => exact ⟨p, rfl, hp⟩
  | cons p a s hp ha hs ih =>
    obtain ⟨b, hb, hb'⟩ := ih
    refine ⟨b, ?_, hb'⟩
    rw [List.getLast?_cons_cons]
    cases s with
    | nil => exact absurd rfl hs.ne_nil
    | cons x s => rw [List.getLast?_cons_cons]; exact hb

theorem getLast?_cons2 {s : St} (hs : s ≠ []) (p a : Int) : (p :: a :: s).getLast? = s.getLast? := by
  cases s with
  | nil => exact absurd rfl hs
  | cons x s => rw [List.getLast?_cons_cons, List.getLast?_cons_cons]

theorem Good.append {s : St} (h : Good c s) {a b q : Int} (hb : s.getLast? = some b)
    (ha : 0 ≤ a → c.hasEdge b a = true) (hq : 0 ≤ q) : Good c (s ++ [a, q]) := by
  induction h with
  | single p hp =>
    simp only [List.getLast?_singleton, Option.some.injEq] at hb
    subst hb
    exact .cons p a [q] hp ha (.single q hq)
  | cons p a' s hp ha' hs ih =>
    rw [getLast?_cons2 hs.ne_nil] at hb
    exact .cons p a' _ hp ha' (ih hb)

theorem Good.drop2 {s : St} (h : Good c s) (hl : 3 ≤ s.length) : Good c (s.drop 2) := by
  cases h with
  | single p hp => simp at hl
  | cons p a s hp ha hs => exact hs

theorem drop2_getLast? {s : St} (hl : 3 ≤ s.length) : (s.drop 2).getLast? = s.getLast? := by
  match s, hl with
  | p :: a :: x :: s, _ => rw [getLast?_cons2 (by simp)]; rfl

theorem Good.setLast {s : St} (h : Good c s) {q : Int} (hq : 0 ≤ q) : Good c (s.dropLast ++ [q]) := by
  induction h with
  | single p hp => exact .single q hq
  | cons p a s hp ha hs ih =>
    have : (p :: a :: s).dropLast = p :: a :: s.dropLast := by
      cases s with
      | nil => exact absurd rfl hs.ne_nil
      | cons x s => rfl
    rw [this]
    exact .cons p a _ hp ha ih

/-- The last three elements. -/
theorem Good.split3 {s : St} (h : Good c s) (hl : 3 ≤ s.length) :
    ∃ t p a q, s = t ++ [p, a, q] ∧ 0 ≤ p ∧ (0 ≤ a → c.hasEdge p a = true) := by
  induction h with
  | single p hp => simp at hl
  | cons p a s hp ha hs ih =>
    by_cases h3 : 3 ≤ s.length
    · obtain ⟨t, p', a', q', rfl, h1, h2⟩ := ih h3
      exact ⟨p :: a :: t, p', a', q', rfl, h1, h2⟩
    · have : s.length = 1 := by have := hs.odd; omega
      obtain ⟨q, rfl⟩ := List.length_eq_one_iff.1 this
      exact ⟨[], p, a, q, rfl, hp, ha⟩

theorem fromBack_1 {s : St} {b : Int} (h : s.getLast? = some b) : fromBack s 1 = b := by
  unfold fromBack
  rw [List.getLast?_eq_getElem?] at h
  simp [List.getD, h]

theorem fromBack_3 (t : St) (p a q : Int) :
    fromBack (t ++ [p, a, q]) 2 = a ∧ fromBack (t ++ [p, a, q]) 3 = p := by
  unfold fromBack
  simp only [List.length_append, List.length_cons, List.length_nil]
  constructor
  · rw [show t.length + (0 + 1 + 1 + 1) - 2 = t.length + 1 by omega]
    simp [List.getD, List.getElem?_append_right]
  · rw [show t.length + (0 + 1 + 1 + 1) - 3 = t.length by omega]
    simp [List.getD, List.getElem?_append_right]

theorem fromBack_cur {s : St} (h : Good c s) (hl : 3 ≤ s.length) (ha : 0 ≤ fromBack s 2) :
    c.hasEdge (fromBack s 3) (fromBack s 2) = true := by
  obtain ⟨t, p, a, q, rfl, -, h2⟩ := h.split3 hl
  obtain ⟨e1, e2⟩ := fromBack_3 t p a q
  rw [e1] at ha
  rw [e1, e2]
  exact h2 ha

theorem getLastD_of {s : St} {b : Int} (h : s.getLast? = some b) : s.getLastD 0 = b := by
  rw [List.getLastD_eq_getLast?, h]; rfl

/-! ### Effect of a step on the internal state -/

/-- Measure: positions left count twice, remembered moves once. -/
def mu (c : Cfg) (s : St) : Int := 2 * ((c.n : Int) - s.getLastD 0) + (s.length / 2 : Nat)

/-- States of the environment. -/
structure Ok (c : Cfg) (s : St) : Prop where
  good : Good c s
  len : s.length ≤ c.stateSize

/-- Successor relation of internal states. -/
structure Succ (c : Cfg) (s t : St) : Prop where
  ok : Ok c t
  dec : done c t = true ∨ mu c t < mu c s

variable {R : Type} [Zero R]

theorem newState_spec (hp : 2 ≤ c.points) {s ns : St} {a : Int} (h : Ok c s)
    (ha : 0 ≤ a → c.hasEdge (fromBack s 1) a = true) (hn : newState c s a = .ok ns) : Succ c s ns := by
  obtain ⟨b, hb, hb0⟩ := h.good.last
  have hodd := h.good.odd
  have hlen := h.len
  rw [fromBack_1 hb] at ha
  have hss : c.stateSize = 2 * c.points - 1 := by unfold Cfg.stateSize; omega
  unfold newState at hn
  rw [hb] at hn
  simp only at hn
  split_ifs at hn with h1 h2
  · cases hn
    have h3 : 3 ≤ s.length := by omega
    have hg := (h.good.drop2 h3).append (a := a) (q := b + 1) ((drop2_getLast? h3).trans hb) ha (by omega)
    refine ⟨⟨hg, by simp; omega⟩, .inr ?_⟩
    unfold mu
    rw [getLastD_of hb, show s.drop 2 ++ [a, b + 1] = (s.drop 2 ++ [a]) ++ [b + 1] by simp, List.getLastD_concat]
    simp only [List.length_append, List.length_drop, List.length_cons, List.length_nil]
    have : (s.length - 2 + (0 + 1) + (0 + 1)) = s.length := by omega
    rw [this]; omega
  · cases hn
    have hg := h.good.append (a := a) (q := b + 1) hb ha (by omega)
    refine ⟨⟨hg, by simp; omega⟩, .inr ?_⟩
    unfold mu
    rw [getLastD_of hb, show s ++ [a, b + 1] = (s ++ [a]) ++ [b + 1] by simp, List.getLastD_concat]
    simp only [List.length_append, List.length_cons, List.length_nil]
    omega

theorem skipState_spec {s : St} (h : Ok c s) (h3 : 3 ≤ s.length) : Succ c s (skipState s) := by
  obtain ⟨b, hb, hb0⟩ := h.good.last
  unfold skipState
  rw [if_pos h3]
  refine ⟨⟨h.good.drop2 h3, by have := h.len; simp; omega⟩, .inr ?_⟩
  unfold mu
  rw [getLastD_of hb, getLastD_of ((drop2_getLast? h3).trans hb)]
  simp only [List.length_drop]
  omega

theorem doneState_spec {s : St} (h : Ok c s) : Succ c s (doneState c s) := by
  unfold doneState
  rw [if_neg h.good.ne_nil]
  refine ⟨⟨h.good.setLast (by omega), ?_⟩, .inl ?_⟩
  · have := h.len
    have := List.length_pos_iff.2 h.good.ne_nil
    simp; omega
  · unfold done; rw [List.getLastD_concat]; simp

theorem prevCheck_spec {s : St} (h : Ok c s) {j : Judge R} {m m' : Move R} (hm : Succ c s m.state)
    (hp : prevCheck c s j m = .ok m') : Succ c s m'.state := by
  unfold prevCheck at hp
  split_ifs at hp <;> cases hp <;> first | exact hm | exact doneState_spec h

theorem rewardOf_spec (hp : 2 ≤ c.points) {s ns : St} {a : Int} {j : Judge R} {m : Move R} (h : Ok c s)
    (hn : newState c s a = .ok ns) (hr : rewardOf c s ns a j = .ok m) : Succ c s m.state := by
  have hne := h.good.ne_nil
  unfold rewardOf at hr
  by_cases ha : 0 ≤ a
  · rw [if_pos ⟨hne, ha⟩] at hr
    by_cases he : c.hasEdge (fromBack s 1) a = true
    · rw [if_pos he] at hr
      have hns := newState_spec hp h (fun _ => he) hn
      split_ifs at hr with h1 h2 h3 h4 h5 h6
      · cases hr; exact hns
      · cases hr; exact skipState_spec h (by omega)
      · cases hr; exact hns
      · exact prevCheck_spec h (m := ⟨j.reward, skipState s, skipAction⟩) (skipState_spec h (by omega)) hr
      · exact prevCheck_spec h (m := ⟨j.reward, ns, a⟩) hns hr
      · cases hr; exact hns
    · rw [if_neg he] at hr; cases hr
  · rw [if_neg (fun hc => ha hc.2)] at hr
    cases hr
    exact newState_spec hp h (fun h0 => absurd h0 ha) hn

/-! ### Invariant of the tables -/

theorem lookup_zipIdx {α : Type} [BEq α] [LawfulBEq α] [DecidableEq α] (l : List α) (hn : l.Nodup) (x : α) : ∀ k,
    (l.zipIdx k).lookup x = (if x ∈ l then some (k + l.idxOf x) else none) := by
  induction l with
  | nil => intro k; rfl
  | cons y l ih =>
    intro k
    rw [List.nodup_cons] at hn
    simp only [List.zipIdx_cons, List.lookup_cons]
    by_cases hxy : x = y
    · subst hxy; simp
    · have hb : (x == y) = false := by simpa using hxy
      rw [hb]
      simp only [ih hn.2, List.mem_cons, hxy, false_or]
      by_cases hx : x ∈ l
      · simp only [hx, if_true]
        rw [List.idxOf_cons_ne _ (Ne.symm hxy)]
        congr 1; omega
      · simp [hx]

/-- Entry of the cache. -/
def Env.entry (e : Env R) (st a : Nat) : Option (Res R) := (e.cache[st]?.bind (fun row => row[a]?)).join

structure Inv (c : Cfg) (e : Env R) : Prop where
  smap : e.smap = e.states.zipIdx
  nodup : e.states.Nodup
  ok : ∀ s ∈ e.states, Ok c s
  clen : e.cache.length = e.states.length
  res : ∀ st a r s, e.entry st a = some r → e.states[st]? = some s →
    ∃ t, e.states[r.state]? = some t ∧ Succ c s t ∧ r.done = done c t

theorem inv_init : Inv c (Env.init : Env R) := by
  constructor <;> simp [Env.init]

/-- Growth of the tables: numbers and cached results persist. -/
structure Ext (e e' : Env R) : Prop where
  states : ∀ (i : Nat) (s : St), e.states[i]? = some s → e'.states[i]? = some s
  cache : ∀ st a r, e.entry st a = some r → e'.entry st a = some r

theorem Ext.refl (e : Env R) : Ext e e := ⟨fun _ _ h => h, fun _ _ _ h => h⟩
theorem Ext.trans {e f g : Env R} (h1 : Ext e f) (h2 : Ext f g) : Ext e g :=
  ⟨fun i s h => h2.states i s (h1.states i s h), fun st a r h => h2.cache st a r (h1.cache st a r h)⟩

/-- Interning a state. -/
theorem intern_spec {e : Env R} (h : Inv c e) {s : St} (hs : Ok c s) :
    Inv c (intern c e s).2 ∧ Ext e (intern c e s).2 ∧ (intern c e s).2.states[(intern c e s).1]? = some s ∧
      (intern c e s).2.cur = e.cur ∧ (∀ st a, (intern c e s).2.entry st a = e.entry st a) ∧
      e.states.length ≤ (intern c e s).2.states.length := by
  have hl := lookup_zipIdx e.states h.nodup s 0
  rw [← h.smap] at hl
  unfold intern
  by_cases hm : s ∈ e.states
  · rw [if_pos hm] at hl
    rw [hl]
    refine ⟨h, .refl e, ?_, rfl, fun _ _ => rfl, Nat.le_refl _⟩
    simp only [Nat.zero_add]
    rw [List.getElem?_eq_getElem (List.idxOf_lt_length_iff.2 hm), List.getElem_idxOf]
  · rw [if_neg hm] at hl
    rw [hl]
    have hent : ∀ st a, (Env.mk (e.states ++ [s]) (e.smap ++ [(s, e.states.length)])
        (e.cache ++ [List.replicate (actionSize c s) none]) e.cur).entry st a = e.entry st a := by
      intro st a
      unfold Env.entry
      simp only
      by_cases hlt : st < e.cache.length
      · rw [List.getElem?_append_left hlt]
      · rw [List.getElem?_append_right (by omega), List.getElem?_eq_none (l := e.cache) (by omega)]
        by_cases h0 : st - e.cache.length = 0
        · rw [h0]
          simp only [List.getElem?_cons_zero, Option.bind_some, List.getElem?_replicate]
          split_ifs <;> rfl
        · rw [List.getElem?_eq_none (by simp; omega)]
    have hst : ∀ (i : Nat) (t : St), e.states[i]? = some t → (e.states ++ [s])[i]? = some t := by
      intro i t ht
      have hlt : i < e.states.length := by
        by_contra hc; rw [List.getElem?_eq_none (by omega)] at ht; cases ht
      rw [List.getElem?_append_left hlt]; exact ht
    refine ⟨?_, ⟨hst, fun st a r hr => (hent st a).trans hr⟩, by simp, rfl, hent, by simp⟩
    constructor
    · simp [h.smap, List.zipIdx_append]
    · simp only [List.nodup_append, List.nodup_cons, List.not_mem_nil, not_false_eq_true, List.nodup_nil, and_self,
        true_and]
      refine ⟨h.nodup, ?_⟩
      intro x hx y hy hxy
      simp at hy
      exact hm (hy ▸ hxy ▸ hx)
    · intro t ht
      rcases List.mem_append.1 ht with ht | ht
      · exact h.ok t ht
      · simp at ht; exact ht ▸ hs
    · simp [h.clen]
    · intro st a r t hr ht
      rw [hent] at hr
      have hlt : st < e.states.length := by
        by_contra hc
        unfold Env.entry at hr
        rw [List.getElem?_eq_none (by rw [h.clen]; omega)] at hr
        cases hr
      simp only at ht
      rw [List.getElem?_append_left hlt] at ht
      obtain ⟨u, hu, h1, h2⟩ := h.res st a r t hr ht
      exact ⟨u, hst _ _ hu, h1, h2⟩

theorem entry_store (e : Env R) (st a : Nat) (r : Res R) (hst : st < e.cache.length) (st' a' : Nat) :
    (store e st a r).entry st' a' = if st' = st ∧ a' = a then some r else e.entry st' a' := by
  unfold store Env.entry
  simp only
  by_cases h1 : st' = st
  · subst h1
    rw [List.getElem?_modify_eq, List.getElem?_eq_getElem hst]
    simp only [Option.map_eq_map, Option.map_some, Option.bind_some, true_and]
    have hlen : a < (e.cache[st'] ++ List.replicate (a + 1 - e.cache[st'].length) (none : Option (Res R))).length := by
      simp; omega
    by_cases h2 : a' = a
    · subst h2
      rw [List.getElem?_set_self hlen]
      simp
    · rw [List.getElem?_set_ne (Ne.symm h2), if_neg h2]
      by_cases h3 : a' < e.cache[st'].length
      · rw [List.getElem?_append_left h3]
      · rw [List.getElem?_append_right (by omega), List.getElem?_eq_none (l := e.cache[st']) (by omega),
          List.getElem?_replicate]
        split_ifs <;> rfl
  · rw [List.getElem?_modify, if_neg (fun h => h1 h.1)]; simp [Ne.symm h1]

theorem cached_eq (e : Env R) (a : Nat) : cached e a = e.entry e.cur a := rfl

/-- A step keeps the invariant, only adds to the tables, and its result is stored. -/
theorem step_spec (hp : 2 ≤ c.points) {e e' : Env R} (h : Inv c e) {a : Nat} {j : Judge R} {r : Res R} {s : St}
    (hs : e.states[e.cur]? = some s) (hx : step c e a j = .ok (r, e')) :
    Inv c e' ∧ Ext e e' ∧ e'.entry e.cur a = some r ∧ e'.cur = r.state ∧
      ∃ t, e'.states[r.state]? = some t ∧ Succ c s t ∧ r.done = done c t := by
  unfold step at hx
  cases hc : cached e a with
  | some r' =>
    rw [hc] at hx
    simp only [Outcome.ok.injEq, Prod.mk.injEq] at hx
    obtain ⟨rfl, rfl⟩ := hx
    have hinv : Inv c { e with cur := r'.state } := ⟨h.smap, h.nodup, h.ok, h.clen, h.res⟩
    exact ⟨hinv, ⟨fun _ _ h => h, fun _ _ _ h => h⟩, hc, rfl, h.res _ _ _ _ hc hs⟩
  | none =>
    rw [hc, hs] at hx
    simp only at hx
    cases hn : newState c s (action2internal a) with
    | throws => rw [hn] at hx; cases hx
    | ub => rw [hn] at hx; cases hx
    | ok ns =>
      rw [hn] at hx
      simp only [Outcome.bind_ok] at hx
      cases hr : rewardOf c s ns (action2internal a) j with
      | throws => rw [hr] at hx; cases hx
      | ub => rw [hr] at hx; cases hx
      | ok m =>
        rw [hr] at hx
        simp only [Outcome.bind_ok, Outcome.ok.injEq, Prod.mk.injEq] at hx
        obtain ⟨hr', he'⟩ := hx
        have hsucc := rewardOf_spec hp (h.ok s (List.mem_of_getElem? hs)) hn hr
        obtain ⟨hi, hext, hst, hcur, hent, hlen⟩ := intern_spec h hsucc.ok
        have hcl : e.cur < e.cache.length := by
          rw [h.clen]
          by_contra hcc; rw [List.getElem?_eq_none (by omega)] at hs; cases hs
        have hcl' : e.cur < (intern c e m.state).2.cache.length := by rw [hi.clen]; rw [h.clen] at hcl; omega
        rw [hr'] at he'
        have hrs : r.state = (intern c e m.state).1 := by rw [← hr']
        have hrd : r.done = done c m.state := by rw [← hr']
        have hE : ∀ st' a', e'.entry st' a' = if st' = e.cur ∧ a' = a then some r else e.entry st' a' := by
          intro st' a'
          rw [← he', ← hent]
          exact entry_store _ e.cur a r hcl' st' a'
        have hS : e'.states = (intern c e m.state).2.states := by rw [← he']; rfl
        refine ⟨?_, ?_, ?_, ?_, ?_⟩
        · constructor
          · rw [hS, ← hi.smap, ← he']; rfl
          · rw [hS]; exact hi.nodup
          · rw [hS]; exact hi.ok
          · rw [hS, ← hi.clen, ← he']; simp [store]
          · intro st a' r' t hr'' ht
            rw [hE] at hr''
            rw [hS] at ht ⊢
            split_ifs at hr'' with hcond
            · cases hr''
              obtain ⟨rfl, rfl⟩ := hcond
              have : t = s := by
                have := hext.states _ _ hs
                rw [ht] at this; exact Option.some.inj this
              subst this
              exact ⟨m.state, by rw [hrs]; exact hst, hsucc, hrd⟩
            · exact hi.res st a' r' t ((hent st a').trans hr'') ht
        · constructor
          · intro i t ht; rw [hS]; exact hext.states i t ht
          · intro st' a' r' hr''
            rw [hE]
            split_ifs with hcond
            · obtain ⟨rfl, rfl⟩ := hcond
              rw [← cached_eq, hc] at hr''; cases hr''
            · exact hr''
        · rw [hE]; simp
        · rw [← he', hrs]
        · exact ⟨m.state, by rw [hS, hrs]; exact hst, hsucc, hrd⟩

theorem start_ok (hp : 2 ≤ c.points) : Ok c [0] :=
  ⟨.single 0 (Int.le_refl _), by unfold Cfg.stateSize; simp; omega⟩

theorem reset_spec (hp : 2 ≤ c.points) {e : Env R} (h : Inv c e) :
    Inv c (reset c e) ∧ Ext e (reset c e) ∧ (reset c e).states[(reset c e).cur]? = some [0] := by
  obtain ⟨hi, hext, hst, -, -, -⟩ := intern_spec h (start_ok hp)
  exact ⟨⟨hi.smap, hi.nodup, hi.ok, hi.clen, hi.res⟩, ⟨hext.states, hext.cache⟩, hst⟩

end MM.Env
