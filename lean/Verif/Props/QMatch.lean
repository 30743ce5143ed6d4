import Verif.Model.QMatch
import Verif.Props.QEnv
import Verif.Props.Tour

/-!
# C106: a match by Q-learning, from candidates to lines
-/

set_option autoImplicit false
set_option linter.unusedSectionVars false

namespace MM.QLearn

variable {R : Type} [CommRing R] [LinearOrder R] [IsStrictOrderedRing R]

/-- When the time is up a whole policy is written. -/
theorem judge_timeout {p : Proc R} {c : Cfg R} {start : Nat} (hB : Bounded p c start) {st : St R} (h : Whole p c start st)
    (hs : st.scores ≠ []) :
    ∃ w, Walk p start w ∧ w.length ≤ c.maxSteps ∧ Ends p w ∧ (judge p c start true st).1.policy = written p w := by
  obtain ⟨w, h1, h2, h3, h4⟩ := extract_walk h.offered c.maxSteps start [] (0 : R)
  have hx := extract_trod h.trod c.maxSteps start [] (0 : R) (h.known hs)
  obtain ⟨y, hy⟩ := Option.ne_none_iff_exists'.1 hx
  have he : Ends p w := by
    rcases (h4 y hy).1 with h5 | h5
    · exact hB w h1 h5
    · exact h5
  refine ⟨w, h1, h2, he, ?_⟩
  unfold judge
  rw [if_pos (.inr rfl)]
  split_ifs <;> exact h3

theorem episodes_timeout {p : Proc R} {c : Cfg R} {start : Nat} (hB : Bounded p c start) {rnd : Nat → Nat → Draw}
    {abort : Nat → Bool} (ha : abort 0 = true) (k : Nat) : ∀ {st st' : St R} {f : Bool}, Whole p c start st → 0 < k →
      episodes p c start rnd abort k st = .ok (st', f) →
      ∃ w, Walk p start w ∧ w.length ≤ c.maxSteps ∧ Ends p w ∧ st'.policy = written p w := by
  induction k with
  | zero => intro st st' f _ h0; omega
  | succ k ih =>
    intro st st' f h _ he
    simp only [episodes] at he
    cases ht : train p c (rnd k) c.maxSteps start st.table 0 with
    | throws => simp [ht] at he
    | ub => simp [ht] at he
    | ok r =>
      rw [ht, Outcome.bind_ok] at he
      have htr : Trod p st.table (some start) := by
        intro s a x hx hd
        rcases h.trod s a x hx hd with h1 | h1
        · exact .inl h1
        · simp at h1
      obtain ⟨-, w, h2, h3, h4⟩ := train_trod c.maxSteps h.offered htr ht
      have hew : Ends p w := by
        rcases h3 with h5 | h5
        · exact hB w h2 h5
        · exact h5
      obtain ⟨h5, h6⟩ := h4 hew
      have hoff := (train_walk c.maxSteps h.offered ht).1
      have hw : Whole p c start (scored st r.1 r.2) ∧ (scored st r.1 r.2).scores ≠ [] := by
        unfold scored
        split
        · exact ⟨⟨hoff, h5, fun _ => h6, h.walk⟩, by simp⟩
        · exact ⟨⟨hoff, h5, fun _ => h6, h.walk⟩, by simp⟩
      obtain ⟨h7, h8⟩ := judge_whole hB (abort := abort k) hw.1 hw.2
      by_cases hf : (judge p c start (abort k) (scored st r.1 r.2)).2 = true
      · rw [if_pos hf, Outcome.ok.injEq, Prod.mk.injEq] at he
        rw [← he.1]
        exact h8 hf
      · rw [if_neg hf] at he
        cases k with
        | zero =>
          simp only [episodes, Outcome.ok.injEq, Prod.mk.injEq] at he
          rw [← he.1, ha]
          exact judge_timeout hB hw.1 hw.2
        | succ k => exact ih h7 (by omega) he

/-- After `m` episodes: the sums that were better than all before, and how many episodes there can have been. -/
def Rec (c : Cfg R) (m : Nat) (st : St R) : Prop :=
  ∃ recs : List R, recs.Pairwise (· < ·) ∧ (∀ y ∈ recs, y ∈ st.scores) ∧ st.best = recs.getLast? ∧ st.noImprovement < c.stop ∧
    m ≤ recs.length * c.stop + st.noImprovement

theorem rec_above {recs : List R} (h : recs.Pairwise (· < ·)) {y : R} (ha : above (some y) recs.getLast? = true) :
    (recs ++ [y]).Pairwise (· < ·) := by
  rw [List.pairwise_append]
  refine ⟨h, List.pairwise_singleton _ _, ?_⟩
  intro a ha' b hb
  simp only [List.mem_singleton] at hb
  subst hb
  cases hl : recs.getLast? with
  | none => rw [List.getLast?_eq_none_iff] at hl; subst hl; simp at ha'
  | some z =>
    rw [hl, above_some] at ha
    obtain ⟨init, rfl⟩ : ∃ init, recs = init ++ [z] := ⟨recs.dropLast, (List.dropLast_append_getLast? z hl).symm⟩
    rcases List.mem_append.1 ha' with h1 | h1
    · exact ((List.pairwise_append.1 h).2.2 a h1 z (by simp)).trans ha
    · simp only [List.mem_singleton] at h1
      subst h1
      exact ha

theorem episodes_rec {p : Proc R} {c : Cfg R} {start : Nat} (hB : Bounded p c start) {rnd : Nat → Nat → Draw} {abort : Nat → Bool}
    (k : Nat) : ∀ {m : Nat} {st st' : St R}, Whole p c start st → Rec c m st →
      episodes p c start rnd abort k st = .ok (st', false) → Rec c (m + k) st' := by
  induction k with
  | zero =>
    intro m st st' _ hr he
    simp only [episodes, Outcome.ok.injEq, Prod.mk.injEq] at he
    rw [← he.1]
    exact hr
  | succ k ih =>
    intro m st st' h hr he
    simp only [episodes] at he
    cases ht : train p c (rnd k) c.maxSteps start st.table 0 with
    | throws => simp [ht] at he
    | ub => simp [ht] at he
    | ok r =>
      rw [ht, Outcome.bind_ok] at he
      have htr : Trod p st.table (some start) := by
        intro s a x hx hd
        rcases h.trod s a x hx hd with h1 | h1
        · exact .inl h1
        · simp at h1
      obtain ⟨-, w, h2, h3, h4⟩ := train_trod c.maxSteps h.offered htr ht
      have hew : Ends p w := by
        rcases h3 with h5 | h5
        · exact hB w h2 h5
        · exact h5
      obtain ⟨h5, h6⟩ := h4 hew
      have hoff := (train_walk c.maxSteps h.offered ht).1
      have hw : Whole p c start (scored st r.1 r.2) ∧ (scored st r.1 r.2).scores ≠ [] := by
        unfold scored
        split
        · exact ⟨⟨hoff, h5, fun _ => h6, h.walk⟩, by simp⟩
        · exact ⟨⟨hoff, h5, fun _ => h6, h.walk⟩, by simp⟩
      have hrec : ∃ recs : List R, recs.Pairwise (· < ·) ∧ (∀ y ∈ recs, y ∈ (scored st r.1 r.2).scores) ∧
          (scored st r.1 r.2).best = recs.getLast? ∧ (scored st r.1 r.2).noImprovement ≤ c.stop ∧
          m + 1 ≤ recs.length * c.stop + (scored st r.1 r.2).noImprovement := by
        obtain ⟨recs, r1, r2, r3, r4, r5⟩ := hr
        unfold scored
        by_cases ha : above (some r.2) st.best = true
        · rw [if_pos ha]
          rw [r3] at ha
          refine ⟨recs ++ [r.2], rec_above r1 ha, ?_, by simp, Nat.zero_le _, ?_⟩
          · intro y hy
            rcases List.mem_append.1 hy with hy | hy
            · exact List.mem_append_left _ (r2 y hy)
            · exact List.mem_append_right _ hy
          · simp only [List.length_append, List.length_singleton, Nat.add_mul]
            omega
        · rw [if_neg ha]
          exact ⟨recs, r1, fun y hy => List.mem_append_left _ (r2 y hy), r3, r4, by show m + 1 ≤ _ + (st.noImprovement + 1); omega⟩
      obtain ⟨h7, h8⟩ := judge_whole hB (abort := abort k) hw.1 hw.2
      by_cases hf : (judge p c start (abort k) (scored st r.1 r.2)).2 = true
      · rw [if_pos hf, Outcome.ok.injEq, Prod.mk.injEq] at he
        exact absurd he.2 (by simp)
      · rw [if_neg hf] at he
        have hj : Rec c (m + 1) (judge p c start (abort k) (scored st r.1 r.2)).1 := by
          obtain ⟨recs, r1, r2, r3, r4, r5⟩ := hrec
          have hx := extract_trod hw.1.trod c.maxSteps start [] (0 : R) (hw.1.known hw.2)
          obtain ⟨y, hy⟩ := Option.ne_none_iff_exists'.1 hx
          unfold judge at hf ⊢
          by_cases hc : c.stop ≤ (scored st r.1 r.2).noImprovement ∨ abort k = true
          · rw [if_pos hc] at hf ⊢
            by_cases hab : above (extract p (scored st r.1 r.2).table c.maxSteps start [] 0).score (scored st r.1 r.2).best = true
            · rw [if_pos hab]
              rw [hy, r3] at hab
              have hlt : st.noImprovement < c.stop := by obtain ⟨_, _, _, _, h, _⟩ := hr; exact h
              refine ⟨recs ++ [y], rec_above r1 hab, ?_, ?_, ?_, ?_⟩
              · intro z hz
                show z ∈ (scored st r.1 r.2).scores ++ Option.toList _
                rw [hy]
                rcases List.mem_append.1 hz with hz | hz
                · exact List.mem_append_left _ (r2 z hz)
                · exact List.mem_append_right _ (by simpa using hz)
              · show (extract p (scored st r.1 r.2).table c.maxSteps start [] 0).score = _
                rw [hy]; simp
              · show 0 < c.stop
                omega
              · show m + 1 ≤ (recs ++ [y]).length * c.stop + 0
                simp only [List.length_append, List.length_singleton, Nat.add_mul]
                omega
            · rw [if_neg hab] at hf ⊢
              have hno : (extracted (scored st r.1 r.2) (extract p (scored st r.1 r.2).table c.maxSteps start [] 0)).noImprovement =
                  (scored st r.1 r.2).noImprovement := by simp [extracted, hy]
              simp only [hno, Bool.or_eq_true, decide_eq_true_eq, not_or] at hf
              rcases hc with hc | hc
              · exact absurd hc hf.1
              · exact absurd hc hf.2
          · rw [if_neg hc]
            push Not at hc
            exact ⟨recs, r1, r2, r3, hc.1, r5⟩
        have := ih h7 hj he
        rw [show m + (k + 1) = m + 1 + k by omega]
        exact this

/-- If nothing breaks off learning, as many sums, each better than the one before, have been seen as the episodes need. -/
theorem run_rec {p : Proc R} {c : Cfg R} {start : Nat} (hB : Bounded p c start) (hs : 0 < c.stop) {rnd : Nat → Nat → Draw}
    {abort : Nat → Bool} {st : St R} (h : run p c start rnd false abort = .ok (st, false)) : Rec c c.episodes st := by
  unfold run at h
  rw [if_neg (by simp)] at h
  have := episodes_rec hB c.episodes (m := 0) (whole_init p c start) ⟨[], List.Pairwise.nil, by simp, rfl, hs, by simp⟩ h
  rwa [Nat.zero_add] at this

end MM.QLearn

namespace MM.QEnv

open MM.Env (Judge Res action2internal Inv Ext)
open MM.QLearn (Draw Table best Extract Walk Ends)
open MM.Router (Entry record policyOf)
open MM.Decide (Sound Tells Sit Plan Goes)

variable {R : Type} [CommRing R] [LinearOrder R] [IsStrictOrderedRing R]

/-! ### What is remembered agrees with the decision process -/

/-- Every entry of the tables tells what the decision process says. -/
abbrev True_ (x : Decide.Task R) (e : Env.Env R) : Prop := Sound x.cfg x.world (fun _ => True) e

variable {x : Decide.Task R}

theorem init_true : True_ x (Env.Env.init : Env.Env R) :=
  ⟨Env.inv_init, by simp [Env.Env.init], by simp [Env.Env.init, Env.Env.entry]⟩

theorem reset_true {e : Env.Env R} (h : True_ x e) : True_ x (Env.reset x.cfg e) := by
  obtain ⟨h1, h2, _⟩ := Env.reset_spec (c := x.cfg) (by simp [Decide.Task.cfg]) h.inv
  refine ⟨h1, fun _ _ => trivial, ?_⟩
  intro i a r s hr hs
  obtain ⟨_, k2, _, _, k5, _⟩ := Env.intern_spec h.inv (Env.start_ok (c := x.cfg) (by simp [Decide.Task.cfg]))
  have hr' : e.entry i a = some r := by rw [← k5 i a]; exact hr
  have hil : i < e.states.length := by
    have := h.inv.clen
    by_contra hcc
    unfold Env.Env.entry at hr'
    rw [List.getElem?_eq_none (by omega)] at hr'
    cases hr'
  obtain ⟨t, ht⟩ : ∃ t, e.states[i]? = some t := ⟨_, List.getElem?_eq_getElem hil⟩
  rw [h2.states _ _ ht] at hs
  cases hs
  obtain ⟨m, h3, h4⟩ := h.agree i a r _ hr' ht
  exact ⟨m, h3, h4.ext h2⟩

theorem step_true {e e' : Env.Env R} {a : Nat} {r : Res R} (h : True_ x e) (hs : Env.step x.cfg e a (x.verdict e a) = .ok (r, e')) :
    True_ x e' := by
  cases hc : Env.cached e a with
  | some r' =>
    unfold Env.step at hs
    rw [hc] at hs
    simp only [Outcome.ok.injEq, Prod.mk.injEq] at hs
    rw [← hs.2]
    exact h.at_ _
  | none =>
    cases hcur : e.states[e.cur]? with
    | none =>
      unfold Env.step at hs
      rw [hc, hcur] at hs
      simp at hs
    | some s =>
      have hv : x.verdict e a = x.world s (action2internal a) := by unfold Decide.Task.verdict; rw [hcur]
      have hact : Decide.act x.cfg x.world e a = .ok (r, e') := by
        unfold Decide.act
        rw [hcur]
        simp only
        rw [← hv]
        exact hs
      have hm : ∃ m, Decide.move x.cfg x.world s a = .ok m := by
        unfold Env.step at hs
        rw [hc, hcur] at hs
        simp only at hs
        unfold Decide.move
        cases hn : Env.newState x.cfg s (action2internal a) with
        | throws => rw [hn] at hs; simp at hs
        | ub => rw [hn] at hs; simp at hs
        | ok ns =>
          rw [hn, Outcome.bind_ok, hv] at hs
          rw [Outcome.bind_ok]
          cases hr : Env.rewardOf x.cfg s ns (action2internal a) (x.world s (action2internal a)) with
          | throws => rw [hr] at hs; simp at hs
          | ub => rw [hr] at hs; simp at hs
          | ok m => exact ⟨m, rfl⟩
      obtain ⟨m, hm⟩ := hm
      obtain ⟨r', e'', k1, k2, _⟩ := Decide.act_spec (by simp [Decide.Task.cfg]) h hcur hm trivial
      rw [hact] at k1
      simp only [Outcome.ok.injEq, Prod.mk.injEq] at k1
      rw [k1.2]
      exact k2

theorem probe_true (as : List Nat) : ∀ {e e' : Env.Env R} {rs : List (Nat × R)}, True_ x e →
    probe x.cfg x.verdict e as = .ok (rs, e') → True_ x e' := by
  induction as with
  | nil =>
    intro e e' rs h hs
    simp only [probe, Outcome.ok.injEq, Prod.mk.injEq] at hs
    rw [← hs.2]; exact h
  | cons a as ih =>
    intro e e' rs h hs
    rw [probe] at hs
    cases h1 : Env.step x.cfg e a (x.verdict e a) with
    | throws => rw [h1] at hs; simp at hs
    | ub => rw [h1] at hs; simp at hs
    | ok y =>
      rw [h1, Outcome.bind_ok] at hs
      cases h2 : probe x.cfg x.verdict { y.2 with cur := e.cur } as with
      | throws => rw [h2] at hs; simp at hs
      | ub => rw [h2] at hs; simp at hs
      | ok z =>
        rw [h2, Outcome.map_ok] at hs
        simp only [Outcome.ok.injEq, Prod.mk.injEq] at hs
        rw [← hs.2]
        exact ih (e := { y.2 with cur := e.cur }) ((step_true h h1).at_ _) h2

theorem smart_true {sort : List (Nat × R) → List (Nat × R)} {e e' : Env.Env R} {as : List Nat} (h : True_ x e)
    (hs : smart x.cfg x.verdict sort e = .ok (as, e')) : True_ x e' := by
  unfold smart at hs
  cases hc : e.states[e.cur]? with
  | none => rw [hc] at hs; simp at hs
  | some s =>
    rw [hc] at hs
    simp only at hs
    cases hl : s.getLast? with
    | none =>
      rw [hl] at hs
      simp only [Outcome.ok.injEq, Prod.mk.injEq] at hs
      rw [← hs.2]; exact h
    | some p =>
      rw [hl] at hs
      simp only at hs
      split_ifs at hs with hcond
      · cases h2 : probe x.cfg x.verdict e (List.range' Env.special (x.cfg.edges p.toNat)) with
        | throws => rw [h2] at hs; simp at hs
        | ub => rw [h2] at hs; simp at hs
        | ok z =>
          rw [h2, Outcome.map_ok] at hs
          simp only [Outcome.ok.injEq, Prod.mk.injEq] at hs
          rw [← hs.2]
          exact probe_true _ h h2
      · simp only [Outcome.ok.injEq, Prod.mk.injEq] at hs
        rw [← hs.2]; exact h

variable {sort : List (Nat × R) → List (Nat × R)} {lr γ : R} {episodes stop : Nat}

theorem choose_true {q : Table R} {s : Nat} {d : Draw} {e : Env.Env R} {pk : Pick R} (h : True_ x e)
    (hs : chooseE (x.setup sort lr γ episodes stop) q s d e = .ok pk) : True_ x pk.env := by
  have hrand : randomE (x.setup sort lr γ episodes stop) q s d e = .ok pk → True_ x pk.env := by
    intro hs
    unfold randomE at hs
    cases h1 : smart x.cfg x.verdict sort e with
    | throws => rw [show (x.setup sort lr γ episodes stop).ec = x.cfg from rfl] at hs; simp only [Decide.Task.setup, h1] at hs; simp at hs
    | ub => simp only [Decide.Task.setup, h1] at hs; simp at hs
    | ok y =>
      simp only [Decide.Task.setup, h1, Outcome.bind_ok] at hs
      cases ha : y.1[min (y.1.length - 1) d.number]? with
      | none => rw [ha] at hs; simp at hs
      | some a =>
        rw [ha] at hs
        simp only [Outcome.ok.injEq] at hs
        rw [← hs]
        exact smart_true h h1
  unfold chooseE at hs
  split_ifs at hs with hg
  · cases hb : best (q s) with
    | none => rw [hb] at hs; exact hrand hs
    | some a =>
      rw [hb] at hs
      simp only [Outcome.ok.injEq] at hs
      rw [← hs]; exact h
  · exact hrand hs

theorem train_true {rnd : Nat → Draw} (k : Nat) : ∀ {s : Nat} {q : Table R} {score : R} {e e' : Env.Env R} {y : Table R × R},
    True_ x e → trainE (x.setup sort lr γ episodes stop) rnd k s q score e = .ok (y, e') → True_ x e' := by
  induction k with
  | zero =>
    intro s q score e e' y h hs
    simp only [trainE, Outcome.ok.injEq, Prod.mk.injEq] at hs
    rw [← hs.2]; exact h
  | succ k ih =>
    intro s q score e e' y h hs
    rw [trainE] at hs
    cases h1 : chooseE (x.setup sort lr γ episodes stop) q s (rnd k) e with
    | throws => rw [h1] at hs; simp at hs
    | ub => rw [h1] at hs; simp at hs
    | ok pk =>
      rw [h1, Outcome.bind_ok] at hs
      have hpk := choose_true h h1
      cases h2 : Env.step x.cfg pk.env pk.action (x.verdict pk.env pk.action) with
      | throws =>
        rw [show (x.setup sort lr γ episodes stop).ec = x.cfg from rfl, show (x.setup sort lr γ episodes stop).J = x.verdict from rfl, h2] at hs
        simp at hs
      | ub =>
        rw [show (x.setup sort lr γ episodes stop).ec = x.cfg from rfl, show (x.setup sort lr γ episodes stop).J = x.verdict from rfl, h2] at hs
        simp at hs
      | ok z =>
        rw [show (x.setup sort lr γ episodes stop).ec = x.cfg from rfl, show (x.setup sort lr γ episodes stop).J = x.verdict from rfl, h2,
          Outcome.bind_ok] at hs
        have hz := step_true (r := z.1) (e' := z.2) hpk h2
        split_ifs at hs with hd
        · simp only [Outcome.ok.injEq, Prod.mk.injEq] at hs
          rw [← hs.2]; exact hz
        · exact ih hz hs

theorem extract_true {q : Table R} (k : Nat) : ∀ {s : Nat} {pol : List Entry} {score : R} {e e' : Env.Env R} {y : Extract R},
    True_ x e → extractE (x.setup sort lr γ episodes stop) q k s pol score e = .ok (y, e') → True_ x e' := by
  induction k with
  | zero =>
    intro s pol score e e' y h hs
    simp only [extractE, Outcome.ok.injEq, Prod.mk.injEq] at hs
    rw [← hs.2]; exact h
  | succ k ih =>
    intro s pol score e e' y h hs
    rw [extractE] at hs
    cases hb : best (q s) with
    | none =>
      rw [hb] at hs
      simp only [Outcome.ok.injEq, Prod.mk.injEq] at hs
      rw [← hs.2]; exact h
    | some a =>
      rw [hb] at hs
      simp only [show (x.setup sort lr γ episodes stop).ec = x.cfg from rfl, show (x.setup sort lr γ episodes stop).J = x.verdict from rfl]
        at hs
      cases h2 : Env.step x.cfg e a (x.verdict e a) with
      | throws => rw [h2] at hs; simp at hs
      | ub => rw [h2] at hs; simp at hs
      | ok z =>
        rw [h2, Outcome.bind_ok] at hs
        have hz := step_true (r := z.1) (e' := z.2) h h2
        cases hm : moveE z.2 e.cur z.1 with
        | throws => rw [hm] at hs; simp at hs
        | ub => rw [hm] at hs; simp at hs
        | ok m =>
          rw [hm, Outcome.bind_ok] at hs
          split_ifs at hs with hd
          · simp only [Outcome.ok.injEq, Prod.mk.injEq] at hs
            rw [← hs.2]; exact hz
          · exact ih hz hs

theorem judge_true {abort : Bool} {st : QLearn.St R} {e e' : Env.Env R} {y : QLearn.St R × Bool} (h : True_ x e)
    (hs : judgeE (x.setup sort lr γ episodes stop) abort st e = .ok (y, e')) : True_ x e' := by
  unfold judgeE at hs
  split_ifs at hs with hc
  · rw [show (x.setup sort lr γ episodes stop).ec = x.cfg from rfl] at hs
    cases h1 : extractE (x.setup sort lr γ episodes stop) st.table (x.setup sort lr γ episodes stop).qc.maxSteps
        (Env.reset x.cfg e).cur [] 0 (Env.reset x.cfg e) with
    | throws => rw [h1] at hs; simp at hs
    | ub => rw [h1] at hs; simp at hs
    | ok z =>
      rw [h1, Outcome.map_ok] at hs
      simp only [Outcome.ok.injEq, Prod.mk.injEq] at hs
      rw [← hs.2]
      exact extract_true _ (reset_true h) (show _ = Outcome.ok (z.1, z.2) from h1)
  · simp only [Outcome.ok.injEq, Prod.mk.injEq] at hs
    rw [← hs.2]; exact h

theorem episodes_true {rnd : Nat → Nat → Draw} {abort : Nat → Bool} (k : Nat) : ∀ {st : QLearn.St R} {e e' : Env.Env R}
    {y : QLearn.St R × Bool}, True_ x e → episodesE (x.setup sort lr γ episodes stop) rnd abort k st e = .ok (y, e') → True_ x e' := by
  induction k with
  | zero =>
    intro st e e' y h hs
    simp only [episodesE, Outcome.ok.injEq, Prod.mk.injEq] at hs
    rw [← hs.2]; exact h
  | succ k ih =>
    intro st e e' y h hs
    rw [episodesE, show (x.setup sort lr γ episodes stop).ec = x.cfg from rfl] at hs
    cases h1 : trainE (x.setup sort lr γ episodes stop) (rnd k) (x.setup sort lr γ episodes stop).qc.maxSteps (Env.reset x.cfg e).cur
        st.table 0 (Env.reset x.cfg e) with
    | throws => rw [h1] at hs; simp at hs
    | ub => rw [h1] at hs; simp at hs
    | ok z =>
      rw [h1, Outcome.bind_ok] at hs
      have hz := train_true _ (reset_true h) (show _ = Outcome.ok (z.1, z.2) from h1)
      cases h2 : judgeE (x.setup sort lr γ episodes stop) (abort k) (QLearn.scored st z.1.1 z.1.2) z.2 with
      | throws => rw [h2] at hs; simp at hs
      | ub => rw [h2] at hs; simp at hs
      | ok z2 =>
        rw [h2, Outcome.bind_ok] at hs
        have hz2 := judge_true hz (show _ = Outcome.ok (z2.1, z2.2) from h2)
        split_ifs at hs with hd
        · simp only [Outcome.ok.injEq, Prod.mk.injEq] at hs
          rw [← hs.2]; exact hz2
        · exact ih hz2 hs

theorem run_true {rnd : Nat → Nat → Draw} {aborted : Bool} {abort : Nat → Bool} {y : QLearn.St R × Bool} {e : Env.Env R}
    (h : runE (x.setup sort lr γ episodes stop) rnd aborted abort = .ok (y, e)) : True_ x e := by
  unfold runE at h
  split_ifs at h with ha
  · simp only [Outcome.ok.injEq, Prod.mk.injEq] at h
    rw [← h.2]; exact init_true
  · exact episodes_true _ init_true h

/-! ### Trips are plans -/

/-- A walk through what is remembered is a plan of the decision process; its return is the sum of the rewards. -/
theorem walk_plan (hso : Sorts sort) {e : Env.Env R} (hT : True_ x e) (w : List (Nat × Nat)) : ∀ {i : Nat} {s : Sit}, s.Good x →
    e.states[i]? = some s.st → Walk (procOf x.cfg sort e) i w → Ends (procOf x.cfg sort e) w →
    Plan x 1 s (w.map fun y => (procOf x.cfg sort e).move y.1 y.2) (QLearn.total (procOf x.cfg sort e) w) := by
  induction w with
  | nil => intro i s _ _ _ h; obtain ⟨y, hy, _⟩ := h; simp at hy
  | cons y w ih =>
    intro i s hs hi hw hE
    obtain ⟨t, a⟩ := y
    obtain ⟨rfl, ha, hd, hw⟩ := hw
    have ha' : a ∈ (order x.cfg sort e t).filter fun a => (e.entry t a).isSome := ha
    rw [List.mem_filter] at ha'
    obtain ⟨r, hr⟩ := Option.isSome_iff_exists.1 ha'.2
    obtain ⟨p1, p2, p3⟩ := proc_entry (c := x.cfg) (sort := sort) hr
    have hoff : a ∈ Decide.offer x.cfg s.st := by
      obtain ⟨as, h1, h2⟩ := order_actions (e := { e with cur := t }) hso ha'.1
      rw [Decide.actions_eq (e := { e with cur := t }) hi] at h1
      cases h1
      exact h2
    obtain ⟨m, o, s', hm, hg, hst, hgood, htold⟩ := Decide.goes_of_move hs hoff
    obtain ⟨m', hm', htell⟩ := hT.agree t a r _ hr hi
    rw [hm] at hm'
    cases hm'
    have hmove : (procOf x.cfg sort e).move t a = o := by
      rw [← htold]
      simp only [procOf, hr]
      unfold moveE Decide.told
      rw [hi]
      simp only [Decide.st_last, Encodable.encodek, hm, Env.getLastD_of (Decide.st_last s), htell.action]
      rw [Env.decode_encode _ (Decide.move_action hm)]
    have hrew : r.reward = m.reward := htell.reward
    have hnx : e.states[r.state]? = some s'.st := by rw [htell.state, hst]
    have hdn : r.done = decide (x.n ≤ s'.pos) := by rw [htell.done, hst, Decide.st_done]
    rw [List.map_cons, hmove]
    by_cases hdone : r.done = true
    · have := hd (by rw [p3]; exact hdone)
      subst this
      have ht : QLearn.total (procOf x.cfg sort e) [(t, a)] = m.reward := by simp [QLearn.total, p2, hrew]
      rw [ht]
      rw [hdn] at hdone
      exact .last hg (by simpa using hdone)
    · have ht : QLearn.total (procOf x.cfg sort e) ((t, a) :: w) = m.reward + 1 * QLearn.total (procOf x.cfg sort e) w := by
        simp [QLearn.total, p2, hrew]
      rw [ht]
      have hE' : Ends (procOf x.cfg sort e) w := by
        obtain ⟨y, hy, hyd⟩ := hE
        cases w with
        | nil =>
          simp only [List.getLast?_singleton, Option.some.injEq] at hy
          subst hy
          rw [p3] at hyd
          exact absurd hyd hdone
        | cons z w => exact ⟨y, by rw [← hy, List.getLast?_cons_cons], hyd⟩
      rw [p1] at hw
      refine .more hg ?_ (ih hgood hnx hw hE')
      rw [hdn] at hdone
      simpa using hdone

/-- The policy is that of a plan. -/
theorem run_plan (hso : Sorts sort) (hn : 0 < x.n) {rnd : Nat → Nat → Draw} {aborted : Bool} {abort : Nat → Bool} {st : QLearn.St R}
    {f : Bool} {e : Env.Env R} (h : runE (x.setup sort lr γ episodes stop) rnd aborted abort = .ok ((st, f), e))
    (hst : st.policy ≠ [] ∨ f = true ∨ (aborted = false ∧ 0 < episodes ∧ abort 0 = true)) :
    ∃ l v, Plan x 1 (.fresh 0) l v ∧ st.policy = policyOf l := by
  have hp : 2 ≤ (x.setup sort lr γ episodes stop).ec.points := by simp [Decide.Task.setup, Decide.Task.cfg]
  obtain ⟨h1, h2⟩ := run_sim hp hso h
  have hB := ready_bounded hp hso hn rfl h1
  obtain ⟨w, w1, w2, w3, w4⟩ : ∃ w, Walk (procOf x.cfg sort e) 0 w ∧ w.length ≤ 2 * x.n ∧ Ends (procOf x.cfg sort e) w ∧
      st.policy = QLearn.written (procOf x.cfg sort e) w := by
    rcases hst with hst | hst | ⟨h3, h4, h5⟩
    · exact QLearn.whole_partial hB h2 (.inl hst)
    · exact QLearn.whole_partial hB h2 (.inr hst)
    · unfold QLearn.run at h2
      rw [if_neg (by simp [h3])] at h2
      exact QLearn.episodes_timeout hB h5 _ (QLearn.whole_init _ _ _) h4 h2
  have he := ends_reach (u := x.setup sort lr γ episodes stop) h1 w1 w3
  have hz : e.states[0]? = some [0] :=
    (reach_ext hp (e := Env.reset x.cfg Env.Env.init) .refl he).states 0 [0] rfl
  exact ⟨_, _, walk_plan hso (run_true h) w (s := .fresh 0) trivial hz w1 w3, w4⟩

/-- Sums of rewards seen when learning breaks off are returns of plans. -/
theorem run_scores (hso : Sorts sort) (hn : 0 < x.n) {rnd : Nat → Nat → Draw} {aborted : Bool} {abort : Nat → Bool} {st : QLearn.St R}
    {e : Env.Env R} (h : runE (x.setup sort lr γ episodes stop) rnd aborted abort = .ok ((st, true), e)) (ha : ∀ k, abort k = false)
    (hs : 0 < stop) : ∃ pre b post, st.scores = pre ++ b :: post ∧ stop ≤ post.length ∧ (∀ y ∈ pre, y < b) ∧ (∀ y ∈ post, y ≤ b) ∧
      ∀ y ∈ st.scores, ∃ l, Plan x 1 (.fresh 0) l y := by
  have hp : 2 ≤ (x.setup sort lr γ episodes stop).ec.points := by simp [Decide.Task.setup, Decide.Task.cfg]
  obtain ⟨h1, h2⟩ := run_sim hp hso h
  obtain ⟨pre, b, post, k1, k2, k3, k4, k5⟩ := QLearn.stop_rule h2 ha hs
  refine ⟨pre, b, post, k1, k2, k3, k4, ?_⟩
  intro y hy
  obtain ⟨w, w1, w2, w3, w4⟩ := k5 y hy
  have hE : Ends (procOf x.cfg sort e) w := by
    rcases w3 with w3 | w3
    · exact ready_bounded hp hso hn rfl h1 w w1 w3
    · exact w3
  have he := ends_reach (u := x.setup sort lr γ episodes stop) h1 w1 hE
  have hz : e.states[0]? = some [0] :=
    (reach_ext hp (e := Env.reset x.cfg Env.Env.init) .refl he).states 0 [0] rfl
  refine ⟨w.map fun z => (procOf x.cfg sort e).move z.1 z.2, ?_⟩
  rw [w4]
  exact walk_plan hso (run_true h) w (s := .fresh 0) trivial hz w1 hE

/-! ### Learning breaks off -/

theorem goes_finite (x : Decide.Task R) (s : Sit) : {z : Option Entry × R × Sit | Goes x s z.1 z.2.1 z.2.2}.Finite := by
  have hb : ∀ n : Nat, {h : Nat | h < n}.Finite := fun n => Set.finite_lt_nat n
  let cand : Nat → Set (Option Entry × R × Sit) := fun h =>
    {(some (s.pos, h), x.first s.pos h, .after s.pos h), (some (s.pos, h), 0, .after s.pos h)} ∪
    (match s with
      | .after t g => {(some (t + 1, h), (x.leg (t + 1) g h).reward, .after (t + 1) h), (none, (x.leg (t + 1) g h).reward, .fresh (t + 1))}
      | _ => ∅)
  have hcand : ∀ h, (cand h).Finite := by
    intro h
    refine Set.Finite.union (by simp) ?_
    cases s <;> simp
  refine Set.Finite.subset (Set.Finite.union (Set.finite_singleton (none, 0, .blank s.pos))
    (Set.Finite.biUnion (hb (x.edges s.pos)) fun h _ => hcand h)) ?_
  rintro ⟨o, r, s'⟩ hg
  simp only [Set.mem_setOf_eq] at hg
  cases hg with
  | gap => left; rfl
  | first h1 h2 => right; simp only [Set.mem_iUnion]; exact ⟨_, h2, .inl (.inl rfl)⟩
  | resume h1 h2 => right; simp only [Set.mem_iUnion]; exact ⟨_, h2, .inl (.inr rfl)⟩
  | on h1 h2 _ => right; simp only [Set.mem_iUnion]; exact ⟨_, h2, .inr (.inl rfl)⟩
  | skip h1 h2 _ _ => right; simp only [Set.mem_iUnion]; exact ⟨_, h2, .inr (.inr rfl)⟩

/-- How far the end is away. -/
def left (x : Decide.Task R) : Sit → Nat
  | .fresh t => 2 * (x.n - t)
  | .after t _ => 2 * (x.n - (t + 1)) + 1
  | .blank t => 2 * (x.n - (t + 1)) + 1

theorem goes_left {s s' : Sit} {o : Option Entry} {r : R} (h : Goes x s o r s') (hp : s'.pos < x.n) : left x s' < left x s := by
  cases h with
  | gap h => cases s <;> simp only [left, Sit.pos] at hp ⊢ <;> omega
  | first h1 h2 => simp only [left, Sit.pos] at hp ⊢; omega
  | resume h1 h2 => simp only [left, Sit.pos] at hp ⊢; omega
  | on h1 h2 _ => simp only [left, Sit.pos] at hp ⊢; omega
  | skip h1 h2 _ _ => simp only [left, Sit.pos] at hp ⊢; omega

/-- There are only finitely many returns. -/
theorem returns_finite (x : Decide.Task R) (γ : R) (m : Nat) : ∀ s : Sit, left x s ≤ m → {v : R | ∃ l, Plan x γ s l v}.Finite := by
  induction m with
  | zero =>
    intro s hm
    refine Set.Finite.subset ((goes_finite x s).image fun z => z.2.1) ?_
    rintro v ⟨l, h⟩
    cases h with
    | last hg _ => exact ⟨(_, _, _), hg, rfl⟩
    | more hg hp _ => have := goes_left hg hp; omega
  | succ m ih =>
    intro s hm
    classical
    refine Set.Finite.subset (Set.Finite.union ((goes_finite x s).image fun z => z.2.1) (Set.Finite.biUnion (goes_finite x s)
      (t := fun z => if left x z.2.2 ≤ m then (fun v => z.2.1 + γ * v) '' {v : R | ∃ l, Plan x γ z.2.2 l v} else ∅) ?_)) ?_
    · intro z _
      split_ifs with hz
      · exact (ih z.2.2 hz).image _
      · exact Set.finite_empty
    · rintro v ⟨l, h⟩
      cases h with
      | last hg _ => left; exact ⟨(_, _, _), hg, rfl⟩
      | @more _ s' o r l v hg hp h =>
        right
        have := goes_left hg hp
        simp only [Set.mem_iUnion]
        refine ⟨(o, r, s'), hg, ?_⟩
        rw [if_pos (show left x s' ≤ m by omega)]
        exact ⟨v, ⟨l, h⟩, rfl⟩

/-- With enough episodes learning breaks off. -/
theorem run_breaks (x : Decide.Task R) (hn : 0 < x.n) (hs : 0 < stop) : ∃ K, ∀ sort, Sorts sort → ∀ lr γ episodes, K ≤ episodes →
    ∀ rnd abort st f e, runE (x.setup sort lr γ episodes stop) rnd false abort = .ok ((st, f), e) → f = true := by
  have hfin := returns_finite x 1 _ (.fresh 0) le_rfl
  refine ⟨(hfin.toFinset.card + 1) * stop, ?_⟩
  intro sort hso lr γ episodes hK rnd abort st f e h
  by_contra hf
  have hf : f = false := by simpa using hf
  subst hf
  have hp : 2 ≤ (x.setup sort lr γ episodes stop).ec.points := by simp [Decide.Task.setup, Decide.Task.cfg]
  obtain ⟨h1, h2⟩ := run_sim hp hso h
  have hB := ready_bounded hp hso hn rfl h1
  obtain ⟨recs, r1, r2, _, r4, r5⟩ := QLearn.run_rec hB hs h2
  have hmem : ∀ y ∈ recs, y ∈ hfin.toFinset := by
    intro y hy
    rw [Set.Finite.mem_toFinset]
    obtain ⟨w, w1, _, w3, w4⟩ := (QLearn.run_inv h2).1.real y (r2 y hy)
    have hE : Ends (procOf x.cfg sort e) w := by
      rcases w3 with w3 | w3
      · exact hB w w1 w3
      · exact w3
    have he := ends_reach (u := x.setup sort lr γ episodes stop) h1 w1 hE
    have hz : e.states[0]? = some [0] := (reach_ext hp (e := Env.reset x.cfg Env.Env.init) .refl he).states 0 [0] rfl
    refine ⟨w.map fun z => (procOf x.cfg sort e).move z.1 z.2, ?_⟩
    rw [w4]
    exact walk_plan hso (run_true h) w (s := .fresh 0) trivial hz w1 hE
  have hnd : recs.Nodup := r1.imp (fun h => ne_of_lt h)
  have hcard : recs.length ≤ hfin.toFinset.card := by
    classical
    rw [← List.toFinset_card_of_nodup hnd]
    exact Finset.card_le_card (fun y hy => hmem y (by simpa using hy))
  have hmul := Nat.mul_le_mul_right stop hcard
  have r4' : st.noImprovement < stop := r4
  have r5' : episodes ≤ recs.length * stop + st.noImprovement := r5
  have : (hfin.toFinset.card + 1) * stop = hfin.toFinset.card * stop + stop := by ring
  omega

end MM.QEnv

namespace MM.Pipe

open MM.Line MM.Route MM.Router MM.MatchRoute
open MM.QLearn (Draw)

variable {V P : Type} [DecidableEq V] [DecidableEq P] [Inhabited P]

/-- What the learner of a track is set up with. -/
noncomputable abbrev Job.learner (j : Job V P ℝ ℝ) (f : Weights.Factors) (sort : List (Nat × ℝ) → List (Nat × ℝ)) (lr γ : ℝ)
    (episodes stop : Nat) : QEnv.Setup ℝ := (j.task f true).setup sort lr γ episodes stop

/-- Without a policy there is no match. -/
theorem empty_route (j : Job V P ℝ ℝ) : MatchRoute.candidatesRoute j.setting [] = .ok Route.bad := by
  rw [MatchRoute.candidatesRoute, collect, Outcome.bind_ok]
  · exact merge_invalid (rs := []) false false _ (by simp)
  · simp

variable {j : Job V P ℝ ℝ} {pos : V → P} {f : Weights.Factors} {sort : List (Nat × ℝ) → List (Nat × ℝ)} {lr γ : ℝ}
  {episodes stop : Nat} {rnd : Nat → Nat → Draw} {aborted : Bool} {abort : Nat → Bool}

/-- **C106, an end.**  Matching with Q-learning comes to an end with a route, whatever the factors, the draws and the order of equal
rewards, and whenever the time is up: nothing is undefined, no exception leaves it.  Without any policy, or if no point has candidates,
the match is invalid. -/
theorem learned_ends (hj : Ready j pos (fun b => b = SP.noBound)) (hw : j.within = false) (hf : Fair j)
    (hstr : j.joins = true → Straight j.setting (OnEdge j) j.env.G.len) (hgap : NoWideGap j) (hso : QEnv.Sorts sort) :
    ∃ st brk e r, QEnv.runE (j.learner f sort lr γ episodes stop) rnd aborted abort = .ok ((st, brk), e) ∧
      j.byLearning f true sort lr γ episodes stop rnd aborted abort = .ok r ∧ (st.policy = [] → r = Route.bad) ∧
      ((∀ t, j.cands.getD t [] = []) → r = Route.bad) := by
  obtain ⟨⟨⟨st, brk⟩, e⟩, h⟩ := QEnv.run_defined_partial (u := j.learner f sort lr γ episodes stop) rfl hso rnd aborted abort
  have hby : j.byLearning f true sort lr γ episodes stop rnd aborted abort = MatchRoute.candidatesRoute j.setting st.policy := by
    unfold Job.byLearning
    rw [h, Outcome.bind_ok]
  by_cases hpol : st.policy = []
  · refine ⟨st, brk, e, Route.bad, h, ?_, fun _ => rfl, fun _ => rfl⟩
    rw [hby, hpol, empty_route]
  · have hn : 0 < (j.task f true).n := by
      by_contra hc
      have hz : (j.learner f sort lr γ episodes stop).qc.maxSteps = 0 := by
        show 2 * (j.task f true).n = 0
        omega
      obtain ⟨_, h2⟩ := QEnv.run_sim (by show 2 ≤ 2; omega) hso h
      obtain ⟨w, _, h4, h5⟩ := QLearn.policy_walk h2
      rw [hz] at h4
      have : w = [] := List.eq_nil_of_length_eq_zero (by omega)
      subst this
      exact hpol h5
    obtain ⟨l, v, hl, heq⟩ := QEnv.run_plan hso hn h (.inl hpol)
    obtain ⟨k1, k2⟩ := plan_route hj hw hf hstr hgap hl
    rcases starts_or_none j with h0 | ⟨t0, ht0⟩
    · exact ⟨st, brk, e, Route.bad, h, by rw [hby, heq, k1 h0], fun _ => rfl, fun _ => rfl⟩
    · obtain ⟨r, runs, h3, h4⟩ := k2 t0 ht0
      exact ⟨st, brk, e, r, h, by rw [hby, heq, h3], fun h => absurd h hpol, fun h => absurd (h t0) ht0.some⟩

/-- **C106, match by Q-learning.**  If learning broke off before its episodes ran out, or wrote a policy at all, or the time was up by the
end of the last episode (the draws and answers of the clock are numbered backwards), the match is the route for a tour, as in C97 (`Decided`): one candidate of each point that has some, connected from each to the next unless a candidate was tried
that is cut off or far away.  The tour was chosen by a plan of the decision process.
Missing: as in C97, and a policy if the episodes run out before one is written (C92). -/
theorem learned_partial (hj : Ready j pos (fun b => b = SP.noBound)) (hw : j.within = false) (hf : Fair j)
    (hstr : j.joins = true → Straight j.setting (OnEdge j) j.env.G.len) (hgap : NoWideGap j) (hso : QEnv.Sorts sort)
    {st : QLearn.St ℝ} {brk : Bool} {e : Env.Env ℝ}
    (h : QEnv.runE (j.learner f sort lr γ episodes stop) rnd aborted abort = .ok ((st, brk), e))
    (hst : st.policy ≠ [] ∨ brk = true ∨ (aborted = false ∧ 0 < episodes ∧ abort 0 = true)) {t0 : Nat} (ht : Starts j t0) : ∃ r runs l v, j.byLearning f true sort lr γ episodes stop rnd aborted abort = .ok r ∧
      Decided j f 1 t0 r runs l v ∧ st.policy = Router.policyOf l := by
  have hn : 0 < (j.task f true).n := by
    have := ht.lt
    show 0 < j.cands.length
    omega
  obtain ⟨l, v, hl, heq⟩ := QEnv.run_plan hso hn h hst
  obtain ⟨r, runs, h3, h4⟩ := (plan_route hj hw hf hstr hgap hl).2 t0 ht
  refine ⟨r, runs, l, v, ?_, h4, heq⟩
  unfold Job.byLearning
  rw [h, Outcome.bind_ok, heq, h3]

/-- **C106, enough episodes.**  There is a number of episodes, which depends on the track and its candidates and on `improvement_stop` only,
from which on learning always breaks off and the match is the route for a tour, whatever is drawn. -/
theorem learned_enough (hj : Ready j pos (fun b => b = SP.noBound)) (hw : j.within = false) (hf : Fair j)
    (hstr : j.joins = true → Straight j.setting (OnEdge j) j.env.G.len) (hgap : NoWideGap j) (hs : 0 < stop) {t0 : Nat}
    (ht : Starts j t0) : ∃ K, ∀ sort, QEnv.Sorts sort → ∀ lr γ episodes, K ≤ episodes → ∀ rnd abort, ∃ r runs l v,
      j.byLearning f true sort lr γ episodes stop rnd false abort = .ok r ∧ Decided j f 1 t0 r runs l v := by
  have hn : 0 < (j.task f true).n := by
    have := ht.lt
    show 0 < j.cands.length
    omega
  obtain ⟨K, hK⟩ := QEnv.run_breaks (j.task f true) hn hs
  refine ⟨K, fun sort hso lr γ episodes hk rnd abort => ?_⟩
  obtain ⟨⟨⟨st, brk⟩, e⟩, h⟩ := QEnv.run_defined_partial (u := j.learner f sort lr γ episodes stop) rfl hso rnd false abort
  have hb := hK sort hso lr γ episodes hk rnd abort st brk e h
  obtain ⟨r, runs, l, v, h1, h2, _⟩ := learned_partial hj hw hf hstr hgap hso h (.inr (.inl hb)) ht
  exact ⟨r, runs, l, v, h1, h2⟩

/-- **C106, when learning breaks off.**  If it did because nothing improved, one sum of rewards was not surpassed in `improvement_stop`
attempts; all sums are those of plans of the decision process, and none of them is greater than what the plans found by policy iteration
(without discount) are worth. -/
theorem learned_sums (hm : CandEdge.Metric j.env.G) (hf : Fair j) (hfo : Weights.FactorsOk f) (hso : QEnv.Sorts sort) (hc : j.cands ≠ [])
    {st : QLearn.St ℝ} {e : Env.Env ℝ}
    (h : QEnv.runE (j.learner f sort lr γ episodes stop) rnd aborted abort = .ok ((st, true), e)) (ha : ∀ k, abort k = false)
    (hs : 0 < stop) : (∃ pre b post, st.scores = pre ++ b :: post ∧ stop ≤ post.length ∧ (∀ y ∈ pre, y < b) ∧ (∀ y ∈ post, y ≤ b)) ∧
      ∀ y ∈ st.scores, (∃ l, Decide.Plan (j.task f true) 1 (.fresh 0) l y) ∧
        ∀ k pol, (j.task f true).byPolicies 1 0 k = .ok (some pol) →
          ∃ l v, pol = Router.policyOf l ∧ Decide.Plan (j.task f true) 1 (.fresh 0) l v ∧ y ≤ v := by
  have hn : 0 < (j.task f true).n := List.length_pos_iff.2 hc
  obtain ⟨pre, b, post, k1, k2, k3, k4, k5⟩ := QEnv.run_scores hso hn h ha hs
  refine ⟨⟨pre, b, post, k1, k2, k3, k4⟩, fun y hy => ⟨k5 y hy, fun k pol hpol => ?_⟩⟩
  obtain ⟨l, v, g1, g2, g3⟩ := Decide.policies_best_partial (task_costly hm hf hfo true) zero_le_one hpol
  obtain ⟨l', hl'⟩ := k5 y hy
  exact ⟨l, v, g1, g2, g3 l' y hl'⟩

/-! ### Examples -/

/-- Sorting by decreasing rewards. -/
noncomputable def sorted (l : List (Nat × ℝ)) : List (Nat × ℝ) := by
  classical exact l.insertionSort (fun x y => y.2 ≤ x.2)

theorem sorted_sorts : QEnv.Sorts sorted := by
  intro l
  unfold sorted
  refine ⟨List.perm_insertionSort _ l, ?_⟩
  have : Std.Total (fun x y : Nat × ℝ => y.2 ≤ x.2) := ⟨fun x y => le_total y.2 x.2⟩
  have : IsTrans (Nat × ℝ) (fun x y => y.2 ≤ x.2) := ⟨fun _ _ _ h1 h2 => le_trans h2 h1⟩
  exact List.pairwise_insertionSort _ l

/-- The hypotheses hold of the road with a point at 5 and a point at 2, with default settings and the time up after an episode, whatever is
drawn: the match is that of a tour with one candidate of each point. -/
example (rnd : Nat → Nat → Draw) : ∃ found r runs l v,
    (street [5, 2] aside found).byLearning usual true sorted 0.8 0.99 10000 25 rnd false (fun _ => true) = .ok r ∧
    Decided (street [5, 2] aside found) usual 1 0 r runs l v ∧ runs.flatten.map Prod.fst = [0, 1] := by
  obtain ⟨found, hj⟩ := aside_ready [5, 2]
  have hf := aside_fair found
  obtain ⟨st, brk, e, _, h1, _⟩ := learned_ends (f := usual) (lr := 0.8) (γ := 0.99) (episodes := 10000) (stop := 25) (rnd := rnd)
    (aborted := false) (abort := fun _ => true) hj rfl hf (fun _ => street_straight _ _ found) (aside_gap _ _) sorted_sorts
  obtain ⟨r, runs, l, v, h2, h3, _⟩ := learned_partial hj rfl hf (fun _ => street_straight _ _ found) (aside_gap _ _) sorted_sorts h1
    (.inr (.inr ⟨rfl, by omega, rfl⟩)) (aside_starts _ _)
  refine ⟨found, r, runs, l, v, h2, h3, ?_⟩
  rw [(decided_points h3 (aside_starts _ _)).1]
  rfl

/-- The hypotheses of `learned_sums` hold of it if there are enough episodes. -/
example (rnd : Nat → Nat → Draw) : ∃ found episodes st e,
    QEnv.runE ((street [5, 2] aside found).learner usual sorted 0.8 0.99 episodes 25) rnd false (fun _ => false) = .ok ((st, true), e) ∧
    25 ≤ st.scores.length := by
  obtain ⟨found, hj⟩ := aside_ready [5, 2]
  obtain ⟨K, hK⟩ := QEnv.run_breaks (stop := 25) ((street [5, 2] aside found).task usual true) (by show 0 < 2; omega) (by omega)
  obtain ⟨⟨⟨st, brk⟩, e⟩, h⟩ := QEnv.run_defined_partial (u := (street [5, 2] aside found).learner usual sorted 0.8 0.99 K 25) rfl
    sorted_sorts rnd false (fun _ => false)
  have hb := hK sorted sorted_sorts 0.8 0.99 K le_rfl rnd (fun _ => false) st brk e h
  subst hb
  refine ⟨found, K, st, e, h, ?_⟩
  obtain ⟨⟨pre, b, post, h1, h2, _⟩, _⟩ := learned_sums hj.plane.toMetric (aside_fair found) usual_ok sorted_sorts
    (by simp [street, aside]) h (fun _ => rfl) (by omega)
  rw [h1]
  simp only [List.length_append, List.length_cons]
  omega

end MM.Pipe
