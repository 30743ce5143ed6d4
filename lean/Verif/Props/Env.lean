import Verif.Proofs.Env

/-!
# C14, C15, C55: the decision process environment

`Op.exec` runs what learners do with an environment: reset it, take a step, or go back to a state seen before
(value_iteration.hpp and policy_iteration.hpp assign `env.state`).  The verdict of router and geometry is an
arbitrary input of each step.
-/

set_option autoImplicit false
set_option linter.unusedSectionVars false

namespace MM.Env

variable {R : Type} [Zero R]

/-- What is done with an environment (single.hpp 181-217; assignments of `state` in the learners). -/
inductive Op (R : Type) where
  | reset
  | step (a : Nat) (j : Judge R)
  | goto (st : Nat)

/-- Execution of an operation; only numbers of known states are assigned. -/
def Op.exec (c : Cfg) (e : Env R) : Op R → Outcome (Env R)
  | .reset => .ok (MM.Env.reset c e)
  | .step a j => (MM.Env.step c e a j).map Prod.snd
  | .goto st => if st < e.states.length then .ok { e with cur := st } else .ub

/-- Everything an environment can go through (without undefined behaviour). -/
inductive Hist (c : Cfg) (e : Env R) : Env R → Prop
  | refl : Hist c e e
  | snoc {f g : Env R} (op : Op R) : Hist c e f → op.exec c f = .ok g → Hist c e g

/-- Environments that occur: after `init`, a reset and any operations. -/
def Reach (c : Cfg) (e : Env R) : Prop := Hist c (reset c Env.init) e

/-- What is known of environments that occur. -/
structure Live (c : Cfg) (e : Env R) : Prop where
  inv : Inv c e
  cur : ∃ s, e.states[e.cur]? = some s

variable {c : Cfg}

theorem op_live (hp : 2 ≤ c.points) {e f : Env R} (h : Live c e) {op : Op R} (hx : op.exec c e = .ok f) :
    Live c f ∧ Ext e f := by
  cases op with
  | reset =>
    simp only [Op.exec, Outcome.ok.injEq] at hx
    subst hx
    obtain ⟨h1, h2, h3⟩ := reset_spec hp h.inv
    exact ⟨⟨h1, _, h3⟩, h2⟩
  | step a j =>
    simp only [Op.exec] at hx
    cases hs : step c e a j with
    | throws => rw [hs] at hx; cases hx
    | ub => rw [hs] at hx; cases hx
    | ok p =>
      rw [hs] at hx
      obtain ⟨r, e'⟩ := p
      cases hx
      obtain ⟨s, hcur⟩ := h.cur
      obtain ⟨h1, h2, -, h4, t, h5, -⟩ := step_spec hp h.inv hcur hs
      exact ⟨⟨h1, t, by rw [h4]; exact h5⟩, h2⟩
  | goto st =>
    simp only [Op.exec] at hx
    split_ifs at hx with hlt
    cases hx
    exact ⟨⟨⟨h.inv.smap, h.inv.nodup, h.inv.ok, h.inv.clen, h.inv.res⟩, _, List.getElem?_eq_getElem hlt⟩,
      ⟨fun _ _ h => h, fun _ _ _ h => h⟩⟩

theorem hist_live (hp : 2 ≤ c.points) {e f : Env R} (h : Live c e) (hh : Hist c e f) : Live c f ∧ Ext e f := by
  induction hh with
  | refl => exact ⟨h, .refl e⟩
  | snoc op _ hx ih => exact ⟨(op_live hp ih.1 hx).1, ih.2.trans (op_live hp ih.1 hx).2⟩

theorem reset_live (hp : 2 ≤ c.points) : Live c (reset c (Env.init : Env R)) :=
  let h := reset_spec hp (inv_init (c := c) (R := R))
  ⟨h.1, _, h.2.2⟩

theorem reach_live (hp : 2 ≤ c.points) {e : Env R} (h : Reach c e) : Live c e :=
  (hist_live hp (reset_live hp) h).1

/-! ### C14 -/

/-- Decoding then encoding an action number. -/
theorem encode_decode (a : Nat) : internal2action (action2internal a) = a := by
  unfold internal2action action2internal noAction skipAction
  by_cases h0 : a = 0
  · simp [h0]
  · by_cases h1 : a = 1
    · simp [h1]
    · simp only [h0, h1, if_false]
      split_ifs <;> omega

/-- Encoding then decoding: none, skip and every candidate index. -/
theorem decode_encode (i : Int) (h : -2 ≤ i) : action2internal (internal2action i) = i := by
  unfold internal2action action2internal noAction skipAction
  by_cases h1 : i = -1
  · simp [h1]
  · by_cases h2 : i = -2
    · simp [h2]
    · simp only [h1, h2, if_false]
      split_ifs <;> omega

example : internal2action (-2) = 1 ∧ action2internal 1 = -2 ∧ internal2action 5 = 7 ∧ action2internal 7 = 5 := by decide

/-- Different numbers stand for different internal states. -/
theorem state_numbers_faithful (hp : 2 ≤ c.points) {e : Env R} (h : Reach c e) {i j : Nat} {s : St}
    (hi : e.states[i]? = some s) (hj : e.states[j]? = some s) : i = j := by
  have hn := (reach_live hp h).inv.nodup
  have hli : i < e.states.length := by
    by_contra hc; rw [List.getElem?_eq_none (by omega)] at hi; cases hi
  exact (List.getElem?_inj hli hn).1 (hi.trans hj.symm)

/-- The number given to an internal state denotes it, and a state seen before gets its old number. -/
theorem state_number_denotes (hp : 2 ≤ c.points) {e : Env R} (h : Reach c e) {a : Nat} {j : Judge R} {r : Res R}
    {e' : Env R} (hs : step c e a j = .ok (r, e')) :
    ∃ t, e'.states[r.state]? = some t ∧ (∀ i, e.states[i]? = some t → r.state = i) ∧
      e'.cur = r.state ∧ r.done = done c t := by
  obtain ⟨s, hcur⟩ := (reach_live hp h).cur
  obtain ⟨h1, h2, -, h4, t, h5, -, h6⟩ := step_spec hp (reach_live hp h).inv hcur hs
  refine ⟨t, h5, ?_, h4, h6⟩
  intro i hi
  have hR : Reach c e' := .snoc (.step a j) h (by simp only [Op.exec, hs]; rfl)
  exact state_numbers_faithful hp hR h5 (h2.states i t hi)

/-- The number of a state never changes, whatever is done. -/
theorem state_number_stable (hp : 2 ≤ c.points) {e f : Env R} (h : Reach c e) (hh : Hist c e f) {i : Nat} {s : St}
    (hi : e.states[i]? = some s) : f.states[i]? = some s :=
  (hist_live hp (reach_live hp h) hh).2.states i s hi

/-! ### C15 -/

/-- **C15, first half.**  A step taken from a state is repeated exactly whatever was done in between, even if router
and geometry would now judge differently. -/
theorem step_reproducible (hp : 2 ≤ c.points) {e e' f : Env R} (h : Reach c e) {a : Nat} {j : Judge R} {r : Res R}
    (hs : step c e a j = .ok (r, e')) (hh : Hist c e' f) (hf : f.cur = e.cur) (j' : Judge R) :
    ∃ f', step c f a j' = .ok (r, f') := by
  obtain ⟨s, hcur⟩ := (reach_live hp h).cur
  obtain ⟨-, -, h3, -⟩ := step_spec hp (reach_live hp h).inv hcur hs
  have hR : Reach c e' := .snoc (.step a j) h (by simp only [Op.exec, hs]; rfl)
  have := (hist_live hp (reach_live hp hR) hh).2.cache _ _ _ h3
  refine ⟨{ f with cur := r.state }, ?_⟩
  unfold step
  rw [cached_eq, hf, this]

/-- An episode: a sequence of steps, each from the state the one before ended in, with the results. -/
inductive Episode (c : Cfg) : Env R → List (Res R) → Env R → Prop
  | nil (e : Env R) : Episode c e [] e
  | cons {e e' f : Env R} {r : Res R} {rs : List (Res R)} (a : Nat) (j : Judge R) :
      step c e a j = .ok (r, e') → Episode c e' rs f → Episode c e (r :: rs) f

theorem episode_bound (hp : 2 ≤ c.points) {e f : Env R} {rs : List (Res R)} (hE : Episode c e rs f) :
    ∀ {s : St}, Inv c e → e.states[e.cur]? = some s → (∀ r ∈ rs, r.done = false) → rs ≠ [] →
      (rs.length : Int) + 2 ≤ mu c s := by
  induction hE with
  | nil e => intro s _ _ _ h; exact absurd rfl h
  | @cons e e' f r rs a j hs hE ih =>
    intro s hi hcur hd _
    obtain ⟨h1, -, -, h4, t, h5, h6, h7⟩ := step_spec hp hi hcur hs
    have hr := hd r (by simp)
    rw [h7] at hr
    have hdec : mu c t < mu c s := by
      rcases h6.dec with hdd | hdd
      · rw [hr] at hdd; cases hdd
      · exact hdd
    have hbase : 2 ≤ mu c t := by
      have : ¬ (c.n : Int) ≤ t.getLastD 0 := by
        intro hle
        unfold done at hr
        exact absurd hle (of_decide_eq_false hr)
      unfold mu; omega
    by_cases hnil : rs = []
    · subst hnil; simp; omega
    · have := ih h1 (by rw [h4]; exact h5) (fun r hr => hd r (by simp [hr])) hnil
      simp only [List.length_cons]; push_cast; omega

/-- **C15, second half.**  After a reset every sequence of `2 * n` steps (`n` candidates), offered or not, contains
one that reports the end: learners that stop there, or after `2 * n` steps (q_learning.hpp), always see it. -/
theorem episode_ends (hp : 2 ≤ c.points) {e f : Env R} (h : Reach c e) {rs : List (Res R)}
    (hE : Episode c (reset c e) rs f) (hne : rs ≠ []) (hl : 2 * c.n ≤ rs.length + 1) :
    ∃ r ∈ rs, r.done = true := by
  by_contra hc
  obtain ⟨h1, -, h3⟩ := reset_spec hp (reach_live hp h).inv
  have := episode_bound hp hE h1 h3 (fun r hr => by
    cases hb : r.done with
    | false => rfl
    | true => exact absurd ⟨r, hr, hb⟩ hc) hne
  have hmu : mu c [0] = 2 * (c.n : Int) := by unfold mu; simp
  rw [hmu] at this
  omega

/-- Episodes can be that long: with two candidates and a skip the end is reported by the third step of three. -/
def demo : Cfg := ⟨2, fun _ => 1, 2, true⟩
def fine : Judge Nat := ⟨5, false, false, false, true⟩
def bad : Judge Nat := ⟨7, true, false, false, true⟩

def resOf (o : Outcome (Res Nat × Env Nat)) : Option (Res Nat) :=
  match o with | .ok (r, _) => some r | _ => none
def envOf (o : Outcome (Res Nat × Env Nat)) : Env Nat :=
  match o with | .ok (_, e) => e | _ => Env.init

def e0 : Env Nat := reset demo Env.init
def e1 : Env Nat := envOf (step demo e0 2 fine)
def e2 : Env Nat := envOf (step demo e1 2 bad)
def e3 : Env Nat := envOf (step demo e2 2 fine)

example : resOf (step demo e0 2 fine) = some ⟨1, 2, 5, false⟩ ∧ resOf (step demo e1 2 bad) = some ⟨2, 1, 7, false⟩ ∧
    resOf (step demo e2 2 fine) = some ⟨3, 2, 5, true⟩ := by decide

/-- The hypotheses of `episode_ends` and `step_reproducible` are met by it. -/
example : Reach demo e3 ∧ ∃ rs, Episode demo e0 rs e3 ∧ rs.length = 3 :=
  ⟨.snoc (f := e2) (.step 2 fine) (.snoc (f := e1) (.step 2 bad) (.snoc (f := e0) (.step 2 fine) .refl rfl) rfl) rfl,
   _, .cons 2 fine rfl (.cons 2 bad rfl (.cons 2 fine rfl (.nil _))), rfl⟩

/-- The router changed its mind, the environment did not. -/
example : resOf (step demo { e3 with cur := 1 } 2 fine) = some ⟨2, 1, 7, false⟩ := by decide

/-! ### C55 -/

/-- What `actions` offers. -/
theorem offered {e : Env R} {s : St} {as : List Nat} {a : Nat} (hs : e.states[e.cur]? = some s)
    (hg : Good c s) (ha : actions c e = .ok as) (hm : a ∈ as) :
    a = 0 ∨ (2 ≤ a ∧ c.hasEdge (fromBack s 1) ((a : Int) - 2) = true) := by
  obtain ⟨b, hb, hb0⟩ := hg.last
  unfold actions at ha
  rw [hs] at ha
  simp only [hb] at ha
  split_ifs at ha with h1
  · cases ha
    right
    rw [List.mem_range'_1] at hm
    unfold special at hm
    rw [fromBack_1 hb]
    refine ⟨hm.1, ?_⟩
    unfold Cfg.hasEdge
    simp only [Bool.and_eq_true, decide_eq_true_eq]
    omega
  · cases ha
    left
    simpa [internal2action] using hm

/-- Without memory of two moves every offered action can be taken. -/
theorem offered_actions_defined_partial (hp : c.points = 2) {e : Env R} (h : Reach c e) {as : List Nat}
    (ha : actions c e = .ok as) {a : Nat} (hm : a ∈ as) (j : Judge R) : ∃ r e', step c e a j = .ok (r, e') := by
  obtain ⟨hi, s, hs⟩ := reach_live (by omega) h
  have hok := hi.ok s (List.mem_of_getElem? hs)
  obtain ⟨b, hb, hb0⟩ := hok.good.last
  have hlen : s.length ≤ 3 := by have := hok.len; unfold Cfg.stateSize at this; omega
  have hns : ∀ x, ∃ ns, newState c s x = .ok ns := by
    intro x
    unfold newState
    rw [hb]
    simp only
    split_ifs with h1 h2
    · exfalso; unfold Cfg.stateSize at h1; omega
    · exact ⟨_, rfl⟩
    · exact ⟨_, rfl⟩
  have hpc : ∀ m : Move R, prevCheck c s j m = .ok m := by
    intro m; unfold prevCheck; rw [if_neg (by omega)]
  have hrw : ∀ ns, ∃ m, rewardOf c s ns (action2internal a) j = .ok m := by
    intro ns
    unfold rewardOf
    by_cases h0 : s ≠ [] ∧ 0 ≤ action2internal a
    · rw [if_pos h0]
      rcases offered hs hok.good ha hm with rfl | ⟨h2, he⟩
      · exact absurd h0.2 (by unfold action2internal noAction; simp)
      · have ha2 : action2internal a = (a : Int) - 2 := by
          unfold action2internal; rw [if_neg (by omega), if_neg (by omega)]
        rw [ha2, if_pos he]
        split_ifs with h3 h4 h5 h6 h7 h8
        · exact ⟨_, rfl⟩
        · exact ⟨_, rfl⟩
        · exact ⟨_, rfl⟩
        · exact ⟨_, hpc _⟩
        · exact ⟨_, hpc _⟩
        · exact absurd (fromBack_cur hok.good (by omega) h4) h5
        · exact ⟨_, rfl⟩
    · rw [if_neg h0]; exact ⟨_, rfl⟩
  unfold step
  cases hc : cached e a with
  | some r => exact ⟨r, _, rfl⟩
  | none =>
    rw [hs]
    obtain ⟨ns, hn⟩ := hns (action2internal a)
    obtain ⟨m, hm⟩ := hrw ns
    simp only [hn, Outcome.bind_ok, hm]
    exact ⟨_, _, rfl⟩

example : Reach demo e2 ∧ actions demo e2 = .ok [2] ∧ demo.points = 2 :=
  ⟨.snoc (f := e1) (.step 2 bad) (.snoc (f := e0) (.step 2 fine) .refl rfl) rfl, rfl, rfl⟩

/-- Three points: the first candidate has two edges, the others one. -/
def demo3 : Cfg := ⟨3, fun p => if p = 0 then 2 else 1, 3, true⟩
def d0 : Env Nat := reset demo3 Env.init
def d1 : Env Nat := envOf (step demo3 d0 3 fine)
def d2 : Env Nat := envOf (step demo3 d1 2 fine)

/-- **C55 fails** with `--state-size 3`: after taking the second edge of the first candidate, the third step reads
the second edge of a candidate that has one (single.hpp 421). -/
theorem offered_actions_defined_fails :
    Reach demo3 d2 ∧ actions demo3 d2 = .ok [2] ∧ step demo3 d2 2 fine = .ub :=
  ⟨.snoc (f := d1) (.step 2 fine) (.snoc (f := d0) (.step 3 fine) .refl rfl) rfl, rfl, rfl⟩

end MM.Env
