import Verif.Model.Recorded
import Verif.Props.Found
import Verif.Props.Matcher
import Verif.Props.Detect
import Verif.Props.SimplifyLine
import Verif.Props.MedianMerge

/-!
# C107: from recorded parts of a track to one match
-/

set_option autoImplicit false
set_option linter.unusedSectionVars false

namespace MM.MatchRoute

open MM.Line MM.Route MM.Router

variable {P : Type} [DecidableEq P] {R A : Type} [LinearOrder R]

/-! ### Whatever is collected owns its lines or refers to living ones -/

/-- A valid route that owns its lines or refers to living ones. -/
def Sound (net : Ref P → Prop) (r : Route P) : Prop := r.invalid = false ∧ ∃ n, Good net n r

theorem join_valid (G : Geo P R A) (turn : A → Bool) (retain : Bool) (n : Nat) (a b : Route P) :
    (join G turn retain n a b).1.invalid = a.invalid ∧ (join G turn retain n a b).2.invalid = b.invalid := by
  unfold join
  split_ifs
  · exact ⟨rfl, rfl⟩
  · split
    · split_ifs
      · exact ⟨rfl, rfl⟩
      · exact ⟨rfl, rfl⟩
      · constructor
        · unfold replaceLast; split_ifs <;> rfl
        · unfold replaceFirst; split_ifs <;> rfl
    · exact ⟨rfl, rfl⟩

theorem joinStep_good {s : Setting P R A} {net : Ref P → Prop} {routes : List (Route P)} {sk : Bool} {r : Route P}
    (h : ∀ x ∈ routes, Sound net x) (hr : r.invalid = false → ∃ n, Good net n r) :
    (∀ x ∈ (joinStep s routes sk r).1, Sound net x) ∧
      ((joinStep s routes sk r).2.invalid = false → ∃ n, Good net n (joinStep s routes sk r).2) := by
  unfold joinStep
  cases hl : routes.getLast? with
  | none => exact ⟨h, hr⟩
  | some prev =>
    simp only
    split_ifs with hc
    · simp only [Bool.and_eq_true, Bool.not_eq_true'] at hc
      obtain ⟨⟨⟨⟨⟨_, _⟩, h1⟩, _⟩, h2⟩, _⟩ := hc
      obtain ⟨n, hn⟩ := hr h1
      obtain ⟨h3, m, hm⟩ := h prev (List.mem_of_getLast? hl)
      have k1 := hm.top (m := unused s [prev, r]) (tops (by simp))
      have k2 := hn.top (m := unused s [prev, r]) (tops (by simp))
      obtain ⟨g1, g2⟩ := join_good s.G s.turn true k1 k2
      refine ⟨?_, fun _ => g2⟩
      intro x hx
      rcases List.mem_append.1 hx with hx | hx
      · exact h x (List.dropLast_subset _ hx)
      · rw [List.mem_singleton.1 hx]; exact ⟨(join_valid _ _ _ _ _ _).1.trans h3, g1⟩
    · exact ⟨h, hr⟩

theorem step_good {s : Setting P R A} {net : Ref P → Prop} {routes : List (Route P)} {sk : Bool} {r : Route P}
    (h : ∀ x ∈ routes, Sound net x) (hr : r.invalid = false → ∃ n, Good net n r) : ∀ x ∈ (step s routes sk r).1, Sound net x := by
  obtain ⟨h1, h2⟩ := joinStep_good (s := s) (sk := sk) h hr
  unfold step
  split_ifs with hk
  · intro x hx
    rcases List.mem_append.1 hx with hx | hx
    · exact h1 x hx
    · rw [List.mem_singleton.1 hx]
      have : (joinStep s routes sk r).2.invalid = false := by
        unfold kept at hk
        rw [Bool.and_eq_true, Bool.not_eq_true'] at hk
        exact hk.1
      exact ⟨this, h2 this⟩
  · exact h1

theorem collect_good {s : Setting P R A} {net : Ref P → Prop} (n : Nat) : ∀ (policy : List Entry) (routes : List (Route P)) (sk : Bool),
    policy.length ≤ n → (∀ p ∈ policy, ∀ q ∈ policy, p.1 ≠ q.1 → ∀ r, s.leg p q = .ok r → r.invalid = false → ∃ n, Good net n r) →
    (∀ x ∈ routes, Sound net x) → ∀ rs, collect s policy routes sk = .ok rs → ∀ x ∈ rs, Sound net x := by
  induction n with
  | zero =>
    intro policy routes sk hn _ h rs hrs
    rw [List.eq_nil_of_length_eq_zero (Nat.le_zero.1 hn), collect] at hrs
    · rw [← Outcome.ok.inj hrs]; exact h
    · simp
  | succ n ih =>
    intro policy routes sk hn hleg h rs hrs
    match policy, hn, hleg, hrs with
    | [], _, _, hrs =>
      rw [collect] at hrs
      · rw [← Outcome.ok.inj hrs]; exact h
      · simp
    | [p], _, _, hrs =>
      rw [collect] at hrs
      · rw [← Outcome.ok.inj hrs]; exact h
      · simp
    | p :: q :: rest, hn, hleg, hrs =>
      simp only [List.length_cons] at hn
      rw [collect] at hrs
      by_cases hpq : p.1 = q.1
      · rw [if_pos hpq] at hrs
        exact ih rest routes true (by omega) (fun a ha b hb => hleg a (by simp [ha]) b (by simp [hb])) h rs hrs
      · rw [if_neg hpq] at hrs
        cases hl : s.leg p q with
        | throws => rw [hl] at hrs; simp at hrs
        | ub => rw [hl] at hrs; simp at hrs
        | ok r =>
          rw [hl, Outcome.bind_ok] at hrs
          exact ih (q :: rest) _ _ (by simp only [List.length_cons]; omega)
            (fun a ha b hb => hleg a (List.mem_cons_of_mem _ ha) b (List.mem_cons_of_mem _ hb))
            (step_good h (hleg p (by simp) q (by simp) hpq r hl)) rs hrs

/-- Whatever the policy is: if the routes between its entries own their lines or refer to living ones, so does the match. -/
theorem route_good {s : Setting P R A} {net : Ref P → Prop} {policy : List Entry} {r : Route P}
    (hleg : ∀ p ∈ policy, ∀ q ∈ policy, p.1 ≠ q.1 → ∀ r, s.leg p q = .ok r → r.invalid = false → ∃ n, Good net n r)
    (hr : candidatesRoute s policy = .ok r) : r = Route.bad ∨ Sound net r := by
  rw [candidatesRoute] at hr
  cases hc : collect s policy [] false with
  | throws => rw [hc] at hr; simp at hr
  | ub => rw [hc] at hr; simp at hr
  | ok rs =>
    rw [hc, Outcome.bind_ok] at hr
    have hg := collect_good _ policy [] false (Nat.le_refl _) hleg (by simp) rs hc
    cases rs with
    | nil =>
      left
      rw [merge_invalid false false _ (by simp)] at hr
      exact (Outcome.ok.inj hr).symm
    | cons q rs =>
      right
      obtain ⟨r', n, h1, h2, h3, _⟩ := merge_lines (ext := net) (next := unused s (q :: rs)) (rs := q :: rs)
        (fun x hx => by obtain ⟨_, n, hn⟩ := hg x hx; exact hn.top (tops hx)) ⟨q, by simp, (hg q (by simp)).1⟩
      rw [h1] at hr
      rw [← Outcome.ok.inj hr]
      exact ⟨h3, n, h2⟩

end MM.MatchRoute

namespace MM.Matcher

open MM.TimeLimit MM.Route

variable {R : Type} [LinearOrder R] [Sub R] [Zero R] {T S Pol P : Type}

/-! ### Engines that give up without a policy -/

/-- The learner gives the policy it would give without a limit, or none. -/
def AllOrNone (E : Engine T S Pol P) : Prop := ∀ (s : S) (c : Clock R), (exec (E.learn s) c).1 = E.empty ∨ (exec (E.learn s) c).1 = calm (E.learn s)

theorem ask_reached {c : Clock R} (h : c.helper.reached = true) : c.ask.1 = true := by
  simp [Clock.ask, updateAndReached, reachedMax, h]

theorem part_decided {E : Engine T S Pol P} (hE : AllOrNone (R := R) E) (t : T) {c : Clock R} (hc : Fresh c) :
    (matchPart E t c).1 = full E t ∨ (matchPart E t c).1.2 = E.empty := by
  unfold matchPart full
  split_ifs with ha
  · exact .inr rfl
  · rcases exec_cases (E.set t) c (.inr hc) with h | ⟨h1, _⟩
    · exact absurd (ask_reached h) ha
    · rw [h1]
      rcases hE (calm (E.set t)) (exec (E.set t) c).2.ask.2 with h | h
      · exact .inr h
      · exact .inl (by rw [h])

theorem loop_decided {E : Engine T S Pol P} (hE : AllOrNone (R := R) E) (x : Export P) (ts : List T) :
    ∀ (k : Collected S Pol P) (c : Clock R), Fresh c → k.aborted = false →
    ∃ pre post, ts = pre ++ post ∧ ((matchLoop E x ts k c).aborted = false → post = []) ∧
      ((matchLoop E x ts k c).matched = k.matched ++ routes E x pre ∨
        (matchLoop E x ts k c).aborted = true ∧ ∃ s, (matchLoop E x ts k c).matched =
          k.matched ++ routes E x pre ++ [stored x (E.result s E.empty)]) := by
  induction ts with
  | nil => intro k c _ _; exact ⟨[], [], rfl, fun _ => rfl, .inl (by simp [matchLoop, routes])⟩
  | cons t ts ih =>
    intro k c hc hk
    rw [matchLoop]
    rcases part_cases E t hc with h | ⟨h1, h2⟩
    · rw [if_pos (reached_of h)]
      rcases part_decided hE t hc with h3 | h3
      · refine ⟨[t], ts, rfl, by simp, .inl ?_⟩
        rw [h3]
        simp [Collected.add, routes, final_eq]
      · refine ⟨[], t :: ts, rfl, by simp, .inr ⟨rfl, (matchPart E t c).1.1, ?_⟩⟩
        rw [h3]
        simp [Collected.add, routes, final_eq]
    · obtain ⟨h3, h4⟩ := reached_fresh h2
      rw [if_neg (by rw [h3]; simp), h1]
      obtain ⟨pre, post, e, ha, hh⟩ := ih (k.add E x (full E t).1 (full E t).2) (matchPart E t c).2.reached.2 h4 hk
      refine ⟨t :: pre, post, by rw [e]; rfl, ha, ?_⟩
      rcases hh with hh | ⟨hh1, s, hh⟩
      · left; rw [hh]; simp [Collected.add, routes, final_eq]
      · right; refine ⟨hh1, s, ?_⟩; rw [hh]; simp [Collected.add, routes, final_eq]

end MM.Matcher

namespace MM.Pipe

open MM.Line MM.Route MM.Router MM.CandEdge MM.MatchRoute MM.Matcher

variable {V P : Type} [DecidableEq V] [DecidableEq P]

/-! ### Preparation -/

section Preparation

variable {R A : Type} [LinearOrder R] [Zero R]

/-- Settings that can be used: no negative tolerance for simplification, a positive one for merging, medians of some points, boxes
around everything within the tolerance. -/
structure Prep.Sane (s : Prep P R A) : Prop where
  tolerance : s.simplify = true → 0 ≤ s.tolerance
  spread : s.merge = true → 0 < s.spread
  med : s.merge = true → ∀ ps, ps ≠ [] → ∃ m, s.med ps = .ok m
  self : s.merge = true → ∀ p, s.dist p p = 0
  box : s.merge = true → ∀ p q, s.dist p q ≤ s.around p → s.box p (s.around p) q = true

/-- `l` is drawn from the recorded points `t`: first, if so set, points are left out that are within the tolerance of the segment
between the points kept around them, not the first and not the last; then, if so set, each run of points within the distance of the
first of them becomes its median, runs being as long as possible. -/
def Drawn (s : Prep P R A) (t l : List P) : Prop :=
  ∃ m, (if s.simplify then (t = [] ∧ m = []) ∨ Simplify.Within (fun x p q => s.segDist x p q ≤ s.tolerance) t m else m = t) ∧
    (if s.merge then Median.Runs (fun p q => s.dist p q ≤ s.around p) s.med m l else l = m)

/-- **C107, preparation.**  A recorded part can be prepared, whatever its points are; detours and duplicates are not removed, with or
without the filter (C58). -/
theorem prepared_drawn {s : Prep P R A} (h : s.Sane) (t : List P) : ∃ l, s.line t = .ok l ∧ Drawn s t l := by
  have h1 : s.first t = .ok t := by
    rw [Prep.first, (Detect.filter_fails s.back s.filter t).1]; rfl
  obtain ⟨m, h2, h3⟩ : ∃ m, s.second t = .ok m ∧
      (if s.simplify then (t = [] ∧ m = []) ∨ Simplify.Within (fun x p q => s.segDist x p q ≤ s.tolerance) t m else m = t) := by
    unfold Prep.second
    by_cases hs : s.simplify = true
    · simp only [hs, if_true]
      by_cases ht : t = []
      · subst ht
        exact ⟨[], Simplify.simplify_empty _ _ _ _ _ _, .inl ⟨rfl, rfl⟩⟩
      · obtain ⟨m, k1, k2⟩ := Simplify.simplify_within_partial s.segDist (h.tolerance hs) s.G s.turn false ht
        exact ⟨m, k2 _ (Nat.le_succ _), .inr k1⟩
    · simp only [hs, if_false, Bool.false_eq_true]
      exact ⟨t, rfl, rfl⟩
  obtain ⟨l, h4, h5⟩ : ∃ l, s.third m = .ok l ∧
      (if s.merge then Median.Runs (fun p q => s.dist p q ≤ s.around p) s.med m l else l = m) := by
    unfold Prep.third
    by_cases hs : s.merge = true
    · simp only [hs, if_true]
      obtain ⟨l, k1, k2⟩ := Median.merge_runs (h.med hs)
        (fun p => lt_of_lt_of_le (h.spread hs) (Median.adaptive_ge s.half s.nearest s.spread s.adaptive p)) (h.self hs) (h.box hs) m
      exact ⟨l, k2 _ (Nat.lt_succ_self _), k1⟩
    · simp only [hs, if_false, Bool.false_eq_true]
      exact ⟨m, rfl, rfl⟩
  exact ⟨l, by rw [Prep.line, h1, Outcome.bind_ok, h2, Outcome.bind_ok, h4], m, h3, h5⟩

/-- A part with points keeps some. -/
theorem Drawn.some {s : Prep P R A} {t l : List P} (h : Drawn s t l) : t ≠ [] → l ≠ [] := by
  obtain ⟨m, h1, h2⟩ := h
  intro ht
  have hm : m ≠ [] := by
    split_ifs at h1
    · rcases h1 with ⟨h1, _⟩ | h1
      · exact absurd h1 ht
      · cases h1 <;> simp
    · rw [h1]; exact ht
  split_ifs at h2
  · cases h2 with
    | nil => exact absurd rfl hm
    | run => simp
  · rw [h2]; exact hm

end Preparation

/-! ### More rounds give the same candidates -/

section Stable

variable {R A : Type} [CommRing R] [LinearOrder R] [IsStrictOrderedRing R]

theorem edges_stable {h : Hunt V P R A} {fuel i : Nat} {p : P} {x : Outcome (List Nat)} (hx : h.edges fuel i p = some x) (k : Nat) :
    h.edges (fuel + k) i p = some x := by
  have key : ∀ (b : Bool) (y : Outcome (R × List Nat)), Cand.radiusSearch (h.looks i p) b fuel = some y →
      Cand.radiusSearch (h.looks i p) b (fuel + k) = some y := by
    intro b y hy
    unfold Cand.radiusSearch at hy ⊢
    split_ifs at hy ⊢
    all_goals exact Cand.search_stable _ fuel _ _ _ _ hy k
  unfold Hunt.edges at hx ⊢
  cases hm : h.mode with
  | circle =>
    simp only [hm, Option.map_eq_some_iff] at hx ⊢
    obtain ⟨y, h1, h2⟩ := hx
    exact ⟨y, key _ _ h1, h2⟩
  | combined =>
    simp only [hm, Option.map_eq_some_iff] at hx ⊢
    obtain ⟨y, h1, h2⟩ := hx
    exact ⟨y, key _ _ h1, h2⟩
  | nearest => simpa only [hm] using hx
  | next => simpa only [hm] using hx

theorem setsFrom_stable {h : Hunt V P R A} {fuel : Nat} (k : Nat) : ∀ (ps : List P) (i : Nat) (x : Outcome (List (List (Spot P R)))),
    h.setsFrom fuel i ps = some x → h.setsFrom (fuel + k) i ps = some x := by
  intro ps
  induction ps with
  | nil => intro i x hx; exact hx
  | cons p ps ih =>
    intro i x hx
    rw [Hunt.setsFrom] at hx ⊢
    cases hs : h.setOf fuel i p with
    | none => rw [hs] at hx; simp at hx
    | some o =>
      have hs' : h.setOf (fuel + k) i p = some o := by
        unfold Hunt.setOf at hs ⊢
        rw [Option.map_eq_some_iff] at hs ⊢
        obtain ⟨y, h1, h2⟩ := hs
        exact ⟨y, edges_stable h1 k, h2⟩
      rw [hs] at hx
      rw [hs']
      cases o with
      | throws => exact hx
      | ub => exact hx
      | ok s =>
        simp only [Option.map_eq_some_iff] at hx ⊢
        obtain ⟨y, h1, h2⟩ := hx
        exact ⟨y, ih _ _ h1, h2⟩

theorem candidates_stable [Inhabited P] {h : Hunt V P R A} {fuel n : Nat} (hn : fuel ≤ n)
    {x : Outcome (List (List (Nat × CandEdge.Cand P R)))} (hx : h.candidates fuel = some x) : h.candidates n = some x := by
  obtain ⟨k, rfl⟩ := Nat.exists_eq_add_of_le hn
  unfold Hunt.candidates at hx ⊢
  rw [Option.map_eq_some_iff] at hx ⊢
  obtain ⟨y, h1, h2⟩ := hx
  exact ⟨y, setsFrom_stable k _ _ _ h1, h2⟩

end Stable

/-! ### One part -/

variable [Inhabited P]

/-- What matching a part gives when time plays no role: preparation, candidates, decoding and routes. -/
noncomputable def Rig.alone (w : Rig V P ℝ ℝ) (t : List P) : Outcome (Route P) :=
  (w.prep.line t).bind fun l => (w.sought l).bind fun cs => (w.job l cs).run w.factors

theorem calm_waits {α : Type} (stop : α) (n : Nat) (m : Asks α) : calm (waits stop n m) = calm m := by
  induction n with
  | zero => rfl
  | succ n ih => rw [waits, calm]; simpa using ih

theorem exec_waits {α : Type} (stop a : α) (n : Nat) : ∀ c : Clock ℝ,
    (exec (waits stop n (.done a)) c).1 = stop ∨ (exec (waits stop n (.done a)) c).1 = a := by
  induction n with
  | zero => intro c; exact .inr rfl
  | succ n ih =>
    intro c
    rw [waits, exec]
    cases c.ask.1 with
    | true => exact .inl rfl
    | false => simpa using ih c.ask.2

theorem rig_decided (w : Rig V P ℝ ℝ) : Matcher.AllOrNone (R := ℝ) w.engine := by
  intro s c
  match s with
  | .ok (l, cs) =>
    show (exec (w.learn (.ok (l, cs))) c).1 = [] ∨ _ = calm (w.learn (.ok (l, cs)))
    rw [Rig.learn, calm_waits]
    exact exec_waits [] _ _ c
  | .throws => exact .inl rfl
  | .ub => exact .inl rfl

theorem empty_bad (s : Setting P ℝ ℝ) : candidatesRoute s [] = .ok Route.bad := by
  rw [MatchRoute.candidatesRoute, collect, Outcome.bind_ok]
  · exact merge_invalid (rs := []) false false _ (by simp)
  · simp

theorem result_empty (w : Rig V P ℝ ℝ) (s : State P ℝ) : w.engine.result s w.engine.empty = Route.bad := by
  show w.result s [] = Route.bad
  match s with
  | .ok (l, cs) => rw [Rig.result, empty_bad]
  | .throws => rfl
  | .ub => rfl

theorem calm_set (w : Rig V P ℝ ℝ) (t : List P) :
    calm (w.set t) = (w.prep.line t).bind fun l => (w.sought l).map fun cs => (l, cs) := by
  unfold Rig.set Prep.line
  cases w.prep.first t with
  | throws => rfl
  | ub => rfl
  | ok a =>
    simp only [stage, calm_waits, Outcome.bind_ok]
    cases w.prep.second a with
    | throws => rfl
    | ub => rfl
    | ok b =>
      simp only [calm_waits, Outcome.bind_ok]
      cases w.prep.third b with
      | throws => rfl
      | ub => rfl
      | ok l =>
        simp only [calm_waits, Outcome.bind_ok]
        cases w.sought l with
        | throws => rfl
        | ub => rfl
        | ok cs => simp only [calm_waits, calm, Outcome.map_ok]

theorem full_route {w : Rig V P ℝ ℝ} {t : List P} {r : Route P} (h : w.alone t = .ok r) :
    w.engine.result (full w.engine t).1 (full w.engine t).2 = r := by
  show w.result (calm (w.set t)) (calm (w.learn (calm (w.set t)))) = r
  rw [calm_set]
  unfold Rig.alone at h
  cases hl : w.prep.line t with
  | throws => rw [hl] at h; simp at h
  | ub => rw [hl] at h; simp at h
  | ok l =>
    rw [hl, Outcome.bind_ok] at h
    rw [Outcome.bind_ok]
    cases hc : w.sought l with
    | throws => rw [hc] at h; simp at h
    | ub => rw [hc] at h; simp at h
    | ok cs =>
      rw [hc, Outcome.bind_ok, Job.run] at h
      rw [Outcome.map_ok, Rig.learn, calm_waits, calm, Rig.result, h]

/-- **C107, time limit.**  Whatever the clock says: the routes are those of the first parts, each as if it were matched alone and
without a limit, possibly followed by one invalid route, and only an aborted match leaves parts out. -/
theorem recorded_prefix {w : Rig V P ℝ ℝ} {x : Export P} (hx : x.edges = false) {alone : List P → Route P} {ts : List (List P)}
    (h : ∀ t ∈ ts, w.alone t = .ok (alone t)) (max : ℝ) (reading : Nat → ℝ) :
    ∃ pre post tail, ts = pre ++ post ∧ (matchTrack w.engine x max reading ts).matched = pre.map alone ++ tail ∧
      (tail = [] ∨ tail = [Route.bad]) ∧
      ((matchTrack w.engine x max reading ts).aborted = false → post = [] ∧ tail = []) ∧
      ((matchTrack w.engine x max reading ts).aborted = true → 0 < max ∧ ∃ n, max ≤ reading n - reading 0) := by
  have hst : ∀ r, stored x r = r := fun r => by unfold stored; rw [hx]
  obtain ⟨pre, post, h1, h2, h3⟩ := loop_decided (rig_decided w) x ts Collected.none _ (start_fresh max reading) rfl
  have hr : routes w.engine x pre = pre.map alone := by
    unfold routes
    refine List.map_congr_left fun t ht => ?_
    rw [hst, full_route (h t (by rw [h1]; exact List.mem_append_left _ ht))]
  rw [hr] at h3
  rcases h3 with h3 | ⟨h4, s, h3⟩
  · exact ⟨pre, post, [], h1, by rw [matchTrack, h3]; simp [Collected.none], .inl rfl, fun ha => ⟨h2 ha, rfl⟩, aborted_late _ _ _ _ _⟩
  · refine ⟨pre, post, [Route.bad], h1, ?_, .inr rfl, fun ha => ?_, aborted_late _ _ _ _ _⟩
    · rw [matchTrack, h3, hst, result_empty]; simp [Collected.none]
    · rw [matchTrack, h4] at ha; cases ha

/-- What is known of the match of a part: it is invalid, or it is connected and, if turns within edges are not trimmed, each of its segments
is a piece of an edge in the direction of the edge. -/
def Fits (w : Rig V P ℝ ℝ) (r : Route P) : Prop :=
  r = Route.bad ∨ (r.isConnected = true ∧
    (w.within = false → ∀ l ∈ r.lines, ∀ sg ∈ segs l, sg.1 ≠ sg.2 → ∃ e ∈ w.hunt.net.edges, PieceOf w.hunt.env.G e.line sg.1 sg.2))

/-- What routes may refer to: lines of edges and of candidates. -/
def Rig.Refers (w : Rig V P ℝ ℝ) (x : Ref P) : Prop := ∃ l cs, Held (w.job l cs) x

theorem policy_entries (j : Job V P ℝ ℝ) (f : Weights.Factors) : ∀ p ∈ j.policy f, (j.entry p).isSome = true := by
  rcases none_or_starts j with h | ⟨t0, ht⟩
  · rw [(match_empty j f h).1]; simp
  · have hlen : j.dists.length = j.cands.length := by simp [Job.dists]
    have h1 : t0 < j.dists.length := by rw [hlen]; exact ht.lt
    have h2 : j.dists.getD t0 [] ≠ [] := by rw [dists_getD]; simpa using ht.some
    have h3 : ∀ s, s < t0 → j.dists.getD s [] = [] := by intro s hs; rw [dists_getD, ht.none s hs]; rfl
    by_cases hp : ∃ σ, Weights.Path j.dists j.legOf t0 σ
    · obtain ⟨σ, k1, k2, _⟩ := Weights.decoded_best f j.dists j.legOf t0 h1 h2 h3 hp
      intro p hp
      rw [Job.policy, k1] at hp
      obtain ⟨t, ht', rfl⟩ := List.mem_map.1 hp
      obtain ⟨a1, a2⟩ := List.mem_range'_1.1 ht'
      have := (k2 t a1 (by omega)).1
      rw [dists_getD, List.length_map] at this
      exact entry_some this
    · rw [Job.policy, Weights.decoded_none f j.dists j.legOf t0 h1 h2 h3 hp]; simp

theorem run_sound {j : Job V P ℝ ℝ} {pos : V → P} {bounds : (ℝ → Bool) → Prop} (hj : Ready j pos bounds) {f : Weights.Factors}
    {r : Route P} (h : j.run f = .ok r) : r = Route.bad ∨ Sound (Held j) r := by
  refine route_good (fun p hp q hq hpq r hr hv => ?_) h
  obtain ⟨c, hc⟩ := Option.isSome_iff_exists.1 (policy_entries j f p hp)
  obtain ⟨d, hd⟩ := Option.isSome_iff_exists.1 (policy_entries j f q hq)
  obtain ⟨r', k1, k2, _⟩ := leg_all hj hc hd hpq
  rw [k1] at hr
  cases hr
  obtain ⟨_, r2, k3, k4⟩ := (k2 hv).1.leg
  rw [k1] at k3
  cases k3
  exact k4.good

theorem sound_weaken {net net' : Ref P → Prop} {r : Route P} (h : Sound net r) (hn : ∀ x, net x → net' x) : Sound net' r :=
  ⟨h.1, h.2.imp fun _ hg => ⟨hg.nodup, hg.order, fun x hx => (hg.alive x hx).imp id (hn x), hg.below⟩⟩

/-- With enough rounds, a part for whose prepared points edges are found is matched. -/
theorem alone_fits {w : Rig V P ℝ ℝ} {pos : V → P} {bounds : (ℝ → Bool) → Prop}
    (hfound : ∀ a b, Answer (w.hunt.net.graph w.hunt.env.G) bounds a b (w.found a b)) (heven : w.joins = true → w.within = false ∧ w.hunt.Even w.turn)
    {t l : List P} (hl : w.prep.line t = .ok l) {fuel : Nat} {E : Nat → List Nat} (hf : Finds (w.on l) pos fuel E)
    (hfuel : fuel ≤ w.fuel) : ∃ r, w.alone t = .ok r ∧ Fits w r ∧ (r = Route.bad ∨ Sound w.Refers r) := by
  obtain ⟨cs, h1, _, h3⟩ := sought_spots hf
  have hs : w.sought l = .ok cs := by rw [Rig.sought, candidates_stable hfuel h1]; rfl
  have hj : Ready (w.job l cs) pos bounds := ⟨hf.plane, hf.laid, h3, hfound⟩
  have hrun : ∀ r, (w.job l cs).run w.factors = .ok r → w.alone t = .ok r ∧ (r = Route.bad ∨ Sound w.Refers r) := by
    intro r hr
    refine ⟨by rw [Rig.alone, hl, Outcome.bind_ok, hs, Outcome.bind_ok, hr], ?_⟩
    exact (run_sound hj hr).imp id fun h => sound_weaken h fun x hx => ⟨l, cs, hx⟩
  rcases none_or_starts (w.job l cs) with h4 | ⟨t0, h4⟩
  · obtain ⟨h5, h6⟩ := hrun _ (match_empty _ w.factors h4).2
    exact ⟨_, h5, .inl rfl, h6⟩
  · rcases match_bounded_partial hj heven w.factors h4 with h5 | ⟨_, r, _, _, h5, _, h6, _, _, h7⟩
    · obtain ⟨h5, h6⟩ := hrun _ h5
      exact ⟨_, h5, .inl rfl, h6⟩
    · obtain ⟨h8, h9⟩ := hrun _ h5
      exact ⟨r, h8, .inr ⟨h6, h7⟩, h9⟩

/-! ### The track -/

/-- The route goes somewhere: some segment has different ends. -/
def moves (r : Route P) : Bool := r.lines.any fun l => (segs l).any fun s => decide (s.1 ≠ s.2)

theorem moves_mergeable {r : Route P} {net : Ref P → Prop} (h : r = Route.bad ∨ Sound net r) : r.mergeable = moves r := by
  rcases h with rfl | h
  · rfl
  · rw [Bool.eq_iff_iff]
    constructor
    · intro hm
      obtain ⟨l, hl, s, hs, hne⟩ := mergeable_moves hm
      unfold moves
      rw [List.any_eq_true]
      exact ⟨l, hl, List.any_eq_true.2 ⟨s, hs, by simpa using hne⟩⟩
    · intro hm
      unfold moves at hm
      obtain ⟨l, hl, hm⟩ := List.any_eq_true.1 hm
      obtain ⟨s, hs, hne⟩ := List.any_eq_true.1 hm
      exact mergeable_of h.1 hl hs (by simpa using hne)

theorem bad_good (net : Ref P → Prop) : Good net 0 (Route.bad : Route P) := by
  constructor <;> simp [Route.bad]

theorem matched_lines (next : Nat) {net : Ref P → Prop} {rs tail : List (Route P)} (h : ∀ r ∈ rs, r = Route.bad ∨ Sound net r)
    (ht : tail = [] ∨ tail = [Route.bad]) :
    ∃ r, matchRoute next (rs ++ tail) = .ok r ∧ (r.invalid = true ↔ ∀ q ∈ rs, q.invalid = true) ∧
      (∀ x ∈ r.refs, x ∈ r.own ∨ net x) ∧ r.lines = (rs.filter moves).flatMap Route.lines := by
  have hall : ∀ r ∈ rs ++ tail, r = Route.bad ∨ Sound net r := by
    intro r hr
    rcases List.mem_append.1 hr with hr | hr
    · exact h r hr
    · rcases ht with rfl | rfl
      · simp at hr
      · exact .inl (List.mem_singleton.1 hr)
  have htm : tail.filter moves = [] := by
    rcases ht with rfl | rfl
    · rfl
    · rfl
  by_cases hv : ∃ q ∈ rs, q.invalid = false
  · obtain ⟨q, hq, hv⟩ := hv
    obtain ⟨r, h1, h2, h3, h4⟩ := match_tracks (net := net) next (routes := rs ++ tail) (fun r hr => by
      rcases hall r hr with rfl | h
      · exact ⟨0, bad_good net⟩
      · exact h.2) ⟨q, List.mem_append_left _ hq, hv⟩
    refine ⟨r, h1, ?_, h3, ?_⟩
    · rw [h2]
      constructor
      · intro h; cases h
      · intro h; rw [h q hq] at hv; cases hv
    · rw [h4, List.filter_congr (fun x hx => moves_mergeable (hall x hx)), List.filter_append, htm, List.append_nil]
  · push Not at hv
    have hb : ∀ q ∈ rs, q = Route.bad := by
      intro q hq
      rcases h q hq with h | h
      · exact h
      · exact absurd h.1 (hv q hq)
    refine ⟨Route.bad, merge_invalid false false _ ?_, ?_, by simp [Route.bad], ?_⟩
    · intro r hr
      rcases List.mem_append.1 hr with hr | hr
      · rw [hb r hr]; rfl
      · rcases ht with rfl | rfl
        · simp at hr
        · rw [List.mem_singleton.1 hr]; rfl
    · exact ⟨fun _ q hq => by rw [hb q hq]; rfl, fun _ => rfl⟩
    · rw [List.filter_eq_nil_iff.2]
      · rfl
      · intro q hq; rw [hb q hq]; simp [moves, Route.bad, Route.lines]

/-- For the prepared points of the part, edges are found within some number of rounds. -/
def Rig.Searches (w : Rig V P ℝ ℝ) (pos : V → P) (t : List P) : Prop :=
  ∀ l, w.prep.line t = .ok l → ∃ fuel E, Finds (w.on l) pos fuel E

/-- More rounds give the same match. -/
theorem alone_stable {w : Rig V P ℝ ℝ} {a n : Nat} (hn : a ≤ n) {t : List P} {r : Route P}
    (h : ({ w with fuel := a } : Rig V P ℝ ℝ).alone t = .ok r) : ({ w with fuel := n } : Rig V P ℝ ℝ).alone t = .ok r := by
  unfold Rig.alone at h ⊢
  cases hl : w.prep.line t with
  | throws => simp only [hl] at h; simp at h
  | ub => simp only [hl] at h; simp at h
  | ok l =>
    simp only [hl, Outcome.bind_ok] at h ⊢
    cases hc : (w.on l).candidates a with
    | none =>
      have e : ({ w with fuel := a } : Rig V P ℝ ℝ).sought l = .ub := by
        show ((w.on l).candidates a).getD .ub = .ub
        rw [hc]; rfl
      rw [e] at h; simp at h
    | some o =>
      have e : ({ w with fuel := a } : Rig V P ℝ ℝ).sought l = o := by
        show ((w.on l).candidates a).getD .ub = o
        rw [hc]; rfl
      have e' : ({ w with fuel := n } : Rig V P ℝ ℝ).sought l = o := by
        show ((w.on l).candidates n).getD .ub = o
        rw [candidates_stable hn hc]; rfl
      rw [e] at h
      rw [e']
      exact h

/-- **C107, parts.**  With enough rounds each part of a track is matched: it can be prepared, and the match is invalid or connected and
along edges in their direction (if turns within edges are trimmed, it is connected; joints are not removed then).
Missing: as in C102 (candidates at one place of their edges). -/
theorem recorded_parts_partial {w : Rig V P ℝ ℝ} (hs : w.prep.Sane) {bounds : (ℝ → Bool) → Prop}
    (hfound : ∀ a b, Answer (w.hunt.net.graph w.hunt.env.G) bounds a b (w.found a b)) (heven : w.joins = true → w.within = false ∧ w.hunt.Even w.turn)
    {pos : V → P} {ts : List (List P)} (hf : ∀ t ∈ ts, w.Searches pos t) :
    ∃ (alone : List P → Route P) (K : Nat), ∀ t ∈ ts, (∃ l, w.prep.line t = .ok l ∧ Drawn w.prep t l) ∧ Fits w (alone t) ∧
      (alone t = Route.bad ∨ Sound w.Refers (alone t)) ∧ ∀ n, K ≤ n → ({ w with fuel := n } : Rig V P ℝ ℝ).alone t = .ok (alone t) := by
  have hone : ∀ t, ∃ r K, t ∈ ts → (∃ l, w.prep.line t = .ok l ∧ Drawn w.prep t l) ∧ Fits w r ∧ (r = Route.bad ∨ Sound w.Refers r) ∧
      ∀ n, K ≤ n → ({ w with fuel := n } : Rig V P ℝ ℝ).alone t = .ok r := by
    intro t
    by_cases ht : t ∈ ts
    · obtain ⟨l, h1, h2⟩ := prepared_drawn hs t
      obtain ⟨fuel, E, h3⟩ := hf t ht l h1
      obtain ⟨r, h4, h5, h6⟩ := alone_fits (w := { w with fuel := fuel }) hfound heven h1 h3 (Nat.le_refl _)
      exact ⟨r, fuel, fun _ => ⟨⟨l, h1, h2⟩, h5, h6, fun n hn => alone_stable hn h4⟩⟩
    · exact ⟨Route.bad, 0, fun h => absurd h ht⟩
  choose alone K hK using hone
  refine ⟨alone, (ts.map K).foldr max 0, fun t ht => ?_⟩
  obtain ⟨h1, h2, h3, h4⟩ := hK t ht
  refine ⟨h1, h2, h3, fun n hn => h4 n (Nat.le_trans ?_ hn)⟩
  clear hn h1 h2 h3 h4 hf
  induction ts with
  | nil => simp at ht
  | cons u us ih =>
    rw [List.map_cons, List.foldr_cons]
    rcases List.mem_cons.1 ht with rfl | ht
    · exact Nat.le_max_left _ _
    · exact Nat.le_trans (ih (fun t ht => hK t (List.mem_cons_of_mem _ ht)) ht) (Nat.le_max_right _ _)

/-- **C107, match.**  Recorded parts of a track are prepared (`Drawn`), candidates are searched for their points, and they are matched.
With enough rounds for the searches, each part has one match on its own (`alone`), which is invalid or connected and along
edges in their direction; and whatever the clock says, the whole is defined, refers to living lines only, is the lines of the matches of
the first parts in order (parts that go nowhere add nothing) and invalid only if all of these are.  Parts are left out only if
the match is marked as aborted, and it is only if the clock passed the limit.
Missing: as in `recorded_parts_partial`; results as whole edges (C69, C79). -/
theorem recorded_partial {w : Rig V P ℝ ℝ} (hs : w.prep.Sane) {bounds : (ℝ → Bool) → Prop}
    (hfound : ∀ a b, Answer (w.hunt.net.graph w.hunt.env.G) bounds a b (w.found a b)) (heven : w.joins = true → w.within = false ∧ w.hunt.Even w.turn)
    {pos : V → P} {ts : List (List P)} (hf : ∀ t ∈ ts, w.Searches pos t) {x : Export P} (hx : x.edges = false) :
    ∃ (alone : List P → Route P) (K : Nat), ∀ n, K ≤ n →
      (∀ t ∈ ts, (∃ l, w.prep.line t = .ok l ∧ Drawn w.prep t l) ∧ ({ w with fuel := n } : Rig V P ℝ ℝ).alone t = .ok (alone t) ∧
        Fits w (alone t)) ∧
      ∀ (max : ℝ) (reading : Nat → ℝ) (next : Nat), ∃ k pre post r,
        k = matchTrack ({ w with fuel := n } : Rig V P ℝ ℝ).engine x max reading ts ∧ ts = pre ++ post ∧ (k.aborted = false → post = []) ∧
        (k.aborted = true → 0 < max ∧ ∃ n, max ≤ reading n - reading 0) ∧
        matchRoute next k.matched = .ok r ∧ (r.invalid = true ↔ ∀ t ∈ pre, (alone t).invalid = true) ∧
        (∀ y ∈ r.refs, y ∈ r.own ∨ w.Refers y) ∧ r.lines = ((pre.map alone).filter moves).flatMap Route.lines := by
  obtain ⟨alone, K, ha⟩ := recorded_parts_partial hs hfound heven hf
  refine ⟨alone, K, fun n hn => ⟨fun t ht => ⟨(ha t ht).1, (ha t ht).2.2.2 n hn, (ha t ht).2.1⟩, fun max reading next => ?_⟩⟩
  obtain ⟨pre, post, tail, h1, h2, h3, h4, h5⟩ := recorded_prefix (w := { w with fuel := n }) hx (fun t ht => (ha t ht).2.2.2 n hn)
    max reading
  obtain ⟨r, k1, k2, k3, k4⟩ := matched_lines next (net := w.Refers) (rs := pre.map alone) (tail := tail) (by
    intro r hr
    obtain ⟨t, ht, rfl⟩ := List.mem_map.1 hr
    exact (ha t (by rw [h1]; exact List.mem_append_left _ ht)).2.2.1) h3
  refine ⟨_, pre, post, r, rfl, h1, fun h => (h4 h).1, h5, by rw [h2]; exact k1, ?_, k3, k4⟩
  rw [k2]
  simp

/-- **C107, parts do not influence each other.**  Without a time limit, the lines of the match of some parts and some more are those of the match
of the former and then those of the match of the latter.  Missing: as in `recorded_partial`. -/
theorem recorded_apart_partial {w : Rig V P ℝ ℝ} (hs : w.prep.Sane) {bounds : (ℝ → Bool) → Prop}
    (hfound : ∀ a b, Answer (w.hunt.net.graph w.hunt.env.G) bounds a b (w.found a b)) (heven : w.joins = true → w.within = false ∧ w.hunt.Even w.turn)
    {pos : V → P} {ts us : List (List P)} (ht : ∀ t ∈ ts, w.Searches pos t) (hu : ∀ t ∈ us, w.Searches pos t) {x : Export P}
    (hx : x.edges = false) {max : ℝ} (hmax : max ≤ 0) (reading : Nat → ℝ) (next : Nat) :
    ∃ K, ∀ n, K ≤ n → ∃ a b r,
      matchRoute next (matchTrack ({ w with fuel := n } : Rig V P ℝ ℝ).engine x max reading ts).matched = .ok a ∧
      matchRoute next (matchTrack ({ w with fuel := n } : Rig V P ℝ ℝ).engine x max reading us).matched = .ok b ∧
      matchRoute next (matchTrack ({ w with fuel := n } : Rig V P ℝ ℝ).engine x max reading (ts ++ us)).matched = .ok r ∧
      r.lines = a.lines ++ b.lines := by
  obtain ⟨al1, K1, h1⟩ := recorded_partial hs hfound heven ht hx
  obtain ⟨al2, K2, h2⟩ := recorded_partial hs hfound heven hu hx
  obtain ⟨al3, K3, h3⟩ := recorded_partial hs hfound heven (ts := ts ++ us)
    (fun t h => (List.mem_append.1 h).elim (ht t) (hu t)) hx
  refine ⟨K1 + K2 + K3, fun n hn => ?_⟩
  obtain ⟨a1, b1⟩ := h1 n (by omega)
  obtain ⟨a2, b2⟩ := h2 n (by omega)
  obtain ⟨a3, b3⟩ := h3 n (by omega)
  obtain ⟨k1, p1, q1, r1, e1, f1, g1, t1, m1, _, _, l1⟩ := b1 max reading next
  obtain ⟨k2, p2, q2, r2, e2, f2, g2, t2, m2, _, _, l2⟩ := b2 max reading next
  obtain ⟨k3, p3, q3, r3, e3, f3, g3, t3, m3, _, _, l3⟩ := b3 max reading next
  have hno : ∀ b : Bool, (b = true → 0 < max ∧ ∃ n, max ≤ reading n - reading 0) → b = false := by
    intro b hb
    cases b with
    | false => rfl
    | true => exact absurd (hb rfl).1 (not_lt.2 hmax)
  rw [g1 (hno _ t1), List.append_nil] at f1
  rw [g2 (hno _ t2), List.append_nil] at f2
  rw [g3 (hno _ t3), List.append_nil] at f3
  subst e1 e2 e3 f1 f2
  refine ⟨r1, r2, r3, m1, m2, m3, ?_⟩
  have c1 : ts.map al3 = ts.map al1 := List.map_congr_left fun t h => by
    have := (a3 t (List.mem_append_left _ h)).2.1
    rw [(a1 t h).2.1] at this
    exact (Outcome.ok.inj this).symm
  have c2 : us.map al3 = us.map al2 := List.map_congr_left fun t h => by
    have := (a3 t (List.mem_append_right _ h)).2.1
    rw [(a2 t h).2.1] at this
    exact (Outcome.ok.inj this).symm
  rw [l1, l2, l3, ← f3, List.map_append, c1, c2, List.filter_append, List.flatMap_append]

/-- Where medians are points of the run, nothing is drawn that was not recorded. -/
theorem Drawn.subset {R A : Type} [LinearOrder R] [Zero R] {s : Prep P R A} {t l : List P} (h : Drawn s t l)
    (hmed : ∀ ps m, s.med ps = .ok m → m ∈ ps) : ∀ p ∈ l, p ∈ t := by
  obtain ⟨m, h1, h2⟩ := h
  have hm : ∀ p ∈ m, p ∈ t := by
    split_ifs at h1
    · rcases h1 with ⟨_, rfl⟩ | h1
      · simp
      · clear h2
        induction h1 with
        | single p => simp
        | step p mid q rest out _ _ ih =>
          intro y hy
          rcases List.mem_cons.1 hy with rfl | hy
          · simp
          · have := ih y hy
            simp only [List.mem_cons, List.mem_append] at this ⊢
            tauto
    · rw [h1]; simp
  have hl : ∀ p ∈ l, p ∈ m := by
    split_ifs at h2
    · clear h1 hm
      induction h2 with
      | nil => simp
      | run p ps rest q out _ _ hq _ ih =>
        intro y hy
        rcases List.mem_cons.1 hy with rfl | hy
        · exact List.mem_append_left _ (hmed _ _ hq)
        · exact List.mem_append_right _ (ih y hy)
    · rw [h2]; simp
  exact fun p hp => hm p (hl p hp)

end MM.Pipe

namespace MM.Prepare

open MM.Line MM.Pipe MM.Matcher MM.MatchRoute

variable {P : Type} [DecidableEq P] [Inhabited P]

/-- **C107, files.**  On a network prepared from files, each segment of the whole match is a piece of a passage that the files permit, in the
permitted direction, whatever the clock says.  Missing: as in `recorded_partial`. -/
theorem recorded_permitted_partial {f : Osm.Filters} {s : Steps} {es : List (Osm.Element P)} {c : Csr.Csr (Nat × P) (Nat × List P)}
    (hprep : prepare f s es = .ok c) {w : Rig Nat P ℝ ℝ} (hnet : w.hunt.net = opened c) (hs : w.prep.Sane) (hw : w.within = false)
    {bounds : (ℝ → Bool) → Prop} (hfound : ∀ a b, Answer (w.hunt.net.graph w.hunt.env.G) bounds a b (w.found a b))
    (heven : w.joins = true → w.hunt.Even w.turn) {ts : List (List P)} (hf : ∀ t ∈ ts, w.Searches (fun v => (nodeAt c v).2) t)
    {x : Export P} (hx : x.edges = false) :
    ∃ K, ∀ n, K ≤ n → ∀ (max : ℝ) (reading : Nat → ℝ) (next : Nat), ∃ r,
      matchRoute next (matchTrack ({ w with fuel := n } : Rig Nat P ℝ ℝ).engine x max reading ts).matched = .ok r ∧
      ∀ l ∈ r.lines, ∀ sg ∈ segs l, sg.1 ≠ sg.2 → OnPassage w.hunt.env.G f es sg.1 sg.2 := by
  obtain ⟨alone, K, hK⟩ := recorded_partial hs hfound (fun h => ⟨hw, heven h⟩) hf hx
  refine ⟨K, fun n hn max reading next => ?_⟩
  obtain ⟨h1, h2⟩ := hK n hn
  obtain ⟨k, pre, post, r, rfl, h3, _, _, h4, _, _, h5⟩ := h2 max reading next
  refine ⟨r, h4, fun l hl sg hsg hne => ?_⟩
  rw [h5] at hl
  obtain ⟨q, hq, hl⟩ := List.mem_flatMap.1 hl
  obtain ⟨t, ht, rfl⟩ := List.mem_map.1 (List.mem_filter.1 hq).1
  obtain ⟨_, _, h6⟩ := h1 t (by rw [h3]; exact List.mem_append_left _ ht)
  rcases h6 with h6 | ⟨_, h6⟩
  · rw [h6] at hl; simp [MM.Route.Route.bad, MM.Route.Route.lines] at hl
  · exact onPassage (j := w.job [] []) hprep hnet (h6 hw l hl sg hsg hne)

/-- **C107, best match of a part.**  Mode CIRCLE, routes searched without a bound, files prepared with complete or no simplification and without
removal of components and nodes.  Let `l` be the prepared line of a part, not empty; choose for each of its points any edge within the
radius such that by the files one may drive from the end of each to the beginning of the next.  Then the match of the part is a
connected route along permitted passages, for a choice of candidates that none surpasses in the sum of weights, in particular not the
one at the projections on these edges.  Missing: as in C103. -/
theorem recorded_best_partial {f : Osm.Filters} {s : Steps} {es : List (Osm.Element P)} {c : Csr.Csr (Nat × P) (Nat × List P)}
    (hprep : prepare f s es = .ok c) (hm : s.simplify ≠ .osmAware) (hcomp : s.unconnected = false) (hdup : s.duplicateNodes = false)
    {w : Rig Nat P ℝ ℝ} (hnet : w.hunt.net = opened c) (hw : w.within = false)
    (hfound : ∀ a b, Answer (w.hunt.net.graph w.hunt.env.G) (fun b => b = SP.noBound) a b (w.found a b))
    (heven : w.joins = true → w.hunt.Even w.turn) {t l : List P} (hl : w.prep.line t = .ok l) (hne : l ≠ [])
    (hc : Circle (w.on l) (fun v => (nodeAt c v).2)) {g : Nat → Nat}
    (hg : ∀ i p, l[i]? = some p → ∃ y, w.hunt.net.edges[g i]? = some y ∧ w.hunt.gap p y.line ≤ (w.on l).reach i)
    (hgo : ∀ i, 0 < i → i < l.length → ∃ a b y, c.edges[g (i - 1)]? = some a ∧ c.edges[g i]? = some b ∧
      Drive f es w.hunt.env.G.len (nodeAt c a.tgt) (nodeAt c b.src) y) :
    ∃ K cs j ρ σ r, j = w.job l cs ∧
      (∀ i p, l[i]? = some p → ∃ d, j.entry (i, ρ i) = some (g i, d) ∧ Beside (w.on l) i p (g i) d) ∧
      Weights.score w.factors j.dists j.legOf 0 ρ (l.length - 1) ≤ Weights.score w.factors j.dists j.legOf 0 σ (l.length - 1) ∧
      (∀ σ', Choice j 0 σ' → Weights.score w.factors j.dists j.legOf 0 σ' (l.length - 1) ≤
        Weights.score w.factors j.dists j.legOf 0 σ (l.length - 1)) ∧
      Choice j 0 σ ∧ r.isConnected = true ∧ (∀ m ∈ r.lines, ∀ sg ∈ segs m, sg.1 ≠ sg.2 → OnPassage w.hunt.env.G f es sg.1 sg.2) ∧
      ∀ n, K ≤ n → ({ w with fuel := n } : Rig Nat P ℝ ℝ).alone t = .ok r := by
  obtain ⟨K, cs, j, ρ, σ, r, h1, h2, h3, h4, h5, h6, h7, h8, h9⟩ := found_match_partial hprep hm hcomp hdup (h := w.on l) hnet hc hne
    (turn := w.turn) (joins := w.joins) hfound heven w.factors hg hgo
  have hj : j = w.job l cs := by rw [h2, Rig.job, hw]
  refine ⟨K, cs, j, ρ, σ, r, hj, h3, h4, h5, h6, h8, h9, fun n hn => ?_⟩
  have e : ({ w with fuel := n } : Rig Nat P ℝ ℝ).sought l = .ok cs := by
    show ((w.on l).candidates n).getD .ub = _
    rw [candidates_stable hn h1]; rfl
  unfold Rig.alone
  simp only [hl, Outcome.bind_ok, e]
  rw [hj] at h7
  exact h7

/-! ### The town, recorded in two parts -/

/-- Simplification and merging within 1; the median of a run is its first point. -/
noncomputable def townPrep : Prep Int ℝ ℝ where
  filter := true
  simplify := true
  tolerance := 1
  merge := true
  spread := 1
  adaptive := false
  back _ _ _ := false
  turn _ := false
  G := streetGeo
  segDist p q r := min (streetGeo.len p q) (streetGeo.len p r)
  med ps := match ps with
    | [] => .throws
    | p :: _ => .ok p
  box p r q := decide (streetGeo.len p q ≤ r)
  dist := streetGeo.len
  half r := r / 2
  nearest _ := none

theorem townPrep_sane : townPrep.Sane := by
  refine ⟨fun _ => by simp [townPrep], fun _ => by simp [townPrep], ?_, ?_, ?_⟩
  · intro _ ps hps
    obtain ⟨p, ps, rfl⟩ := List.exists_cons_of_ne_nil hps
    exact ⟨p, rfl⟩
  · intro _ p; exact street_plane.toMetric.self p
  · intro _ p q h; exact decide_eq_true h

noncomputable def townRig (found : Nat → Nat → Option (List Nat)) : Rig Nat Int ℝ ℝ where
  hunt := townHunt
  prep := townPrep
  turn d := decide (d ≠ 0)
  within := false
  joins := false
  found := found
  factors := usual
  fuel := 0

theorem town_searches (found : Nat → Nat → Option (List Nat)) {t : List Int} (ht : ∀ p ∈ t, p = 2 ∨ p = 13) :
    (townRig found).Searches (fun v => (nodeAt townNet v).2) t := by
  intro l hl
  obtain ⟨l', h1, h2⟩ := prepared_drawn townPrep_sane t
  have : l' = l := Outcome.ok.inj (h1.symm.trans hl)
  subst this
  have hmem := h2.subset (by
    intro ps m hm
    cases ps with
    | nil => cases hm
    | cons p ps => cases hm; simp)
  obtain ⟨fuel, E, hE, _⟩ := circle_finds (h := (townRig found).on l') (pos := fun v => (nodeAt townNet v).2)
    ⟨town_circle.plane, town_circle.laid, rfl, town_circle.sorted, town_circle.inside, town_circle.within, town_circle.radius, by
      intro i p e x hp hx hgap
      rcases ht p (hmem p (List.mem_of_getElem? hp)) with rfl | rfl
      · exact town_circle.clear 0 2 e x rfl hx hgap
      · exact town_circle.clear 1 13 e x rfl hx hgap⟩
  exact ⟨fuel, E, hE⟩

def plainExport : Export Int := ⟨false, false, fun _ => [], fun _ => MM.Route.Route.bad, id⟩

/-- Two parts, with points that are left out and merged. -/
example : ∃ found K, ∀ n, K ≤ n → ∀ (max : ℝ) (reading : Nat → ℝ), ∃ r,
    matchRoute 100 (matchTrack ({ townRig found with fuel := n } : Rig Nat Int ℝ ℝ).engine plainExport max reading
      [[2, 2, 13], [13, 13]]).matched = .ok r ∧
    ∀ l ∈ r.lines, ∀ sg ∈ segs l, sg.1 ≠ sg.2 → OnPassage streetGeo Osm.defaults town sg.1 sg.2 := by
  choose found hfound using prepared_answers townNet streetGeo
  obtain ⟨K, hK⟩ := recorded_permitted_partial town_plain (w := townRig found) rfl townPrep_sane rfl hfound (fun h => by cases h)
    (ts := [[2, 2, 13], [13, 13]]) (fun t ht => town_searches found (by
      intro p hp
      simp only [List.mem_cons, List.not_mem_nil, or_false] at ht
      rcases ht with rfl | rfl <;> simp only [List.mem_cons, List.not_mem_nil, or_false] at hp <;> tauto)) (x := plainExport) rfl
  exact ⟨found, K, fun n hn max reading => hK n hn max reading 100⟩

example : ∃ found K, ∀ n, K ≤ n → ∃ a b r,
    matchRoute 100 (matchTrack ({ townRig found with fuel := n } : Rig Nat Int ℝ ℝ).engine plainExport 0 (fun n => (n : ℝ)) [[2, 2, 13]]).matched = .ok a ∧
    matchRoute 100 (matchTrack ({ townRig found with fuel := n } : Rig Nat Int ℝ ℝ).engine plainExport 0 (fun n => (n : ℝ)) [[13, 2]]).matched = .ok b ∧
    matchRoute 100 (matchTrack ({ townRig found with fuel := n } : Rig Nat Int ℝ ℝ).engine plainExport 0 (fun n => (n : ℝ)) ([[2, 2, 13]] ++ [[13, 2]])).matched = .ok r ∧
    r.lines = a.lines ++ b.lines := by
  choose found hfound using prepared_answers townNet streetGeo
  obtain ⟨K, hK⟩ := recorded_apart_partial (w := townRig found) townPrep_sane hfound (fun h => by cases h)
    (pos := fun v => (nodeAt townNet v).2) (ts := [[2, 2, 13]]) (us := [[13, 2]])
    (fun t ht => town_searches found (by rw [List.mem_singleton.1 ht]; simp))
    (fun t ht => town_searches found (by rw [List.mem_singleton.1 ht]; simp)) (x := plainExport) rfl (max := 0) le_rfl (fun n => (n : ℝ)) 100
  exact ⟨found, K, hK⟩

theorem town_line : townPrep.line [2, 13] = .ok [2, 13] := by
  obtain ⟨l, h1, m, h2, h3⟩ := prepared_drawn townPrep_sane [2, 13]
  have hm : m = [2, 13] := by
    rw [if_pos (show townPrep.simplify = true from rfl)] at h2
    rcases h2 with ⟨h2, _⟩ | h2
    · cases h2
    · generalize hq : ([2, 13] : List Int) = t at h2
      cases h2 with
      | single p => simp at hq
      | step p mid q rest out _ h4 =>
        cases mid with
        | nil =>
          obtain ⟨rfl, rfl, rfl⟩ : p = 2 ∧ q = 13 ∧ rest = [] := by simpa [eq_comm] using hq
          generalize hr : ([13] : List Int) = u at h4
          generalize hv : (13 :: out : List Int) = v at h4
          cases h4 with
          | single => rfl
          | step p' mid' q' rest' out' _ _ => simp at hr
        | cons a mid => simp at hq
  rw [hm] at h3
  have hl : l = [2, 13] := by
    rw [if_pos (show townPrep.merge = true from rfl)] at h3
    generalize hq : ([2, 13] : List Int) = t at h3
    cases h3 with
    | nil => cases hq
    | run p ps rest q out hn _ hmed h4 =>
      have hfar : ∀ q : Int, townPrep.dist 2 q ≤ townPrep.around 2 → q ≠ 13 := by
        intro q hq h13
        rw [h13] at hq
        simp [townPrep, Prep.around, Median.adaptive, streetGeo] at hq
        norm_num at hq
      cases ps with
      | nil =>
        obtain ⟨rfl, rfl⟩ : p = 2 ∧ rest = [13] := by simpa [eq_comm] using hq
        cases hmed
        generalize hr : ([13] : List Int) = t at h4
        cases h4 with
        | nil => cases hr
        | run p' ps' rest' q' out' _ _ hmed' h5 =>
          obtain ⟨rfl, rfl, rfl⟩ : p' = 13 ∧ ps' = [] ∧ rest' = [] := by simpa [eq_comm] using hr
          cases hmed'
          cases h5
          rfl
      | cons a ps =>
        obtain ⟨rfl, rfl, _⟩ : p = 2 ∧ a = 13 ∧ ps ++ rest = [] := by simpa [eq_comm] using hq
        exact absurd rfl (hfar 13 (hn 13 (by simp)))
  rw [h1, hl]

example : ∃ (found : Nat → Nat → Option (List Nat)) (K : Nat) (r : MM.Route.Route Int), r.isConnected = true ∧
    (∀ m ∈ r.lines, ∀ sg ∈ segs m, sg.1 ≠ sg.2 → OnPassage streetGeo Osm.defaults town sg.1 sg.2) ∧
    ∀ n, K ≤ n → ({ townRig found with fuel := n } : Rig Nat Int ℝ ℝ).alone [2, 13] = .ok r := by
  choose found hfound using prepared_answers townNet streetGeo
  obtain ⟨K, cs, j, ρ, σ, r, _, _, _, _, _, h8, h9, h10⟩ := recorded_best_partial town_plain (by decide) rfl rfl (w := townRig found) rfl
    rfl hfound (fun h => by cases h) town_line (by simp) (show Circle ((townRig found).on [2, 13]) _ from town_circle)
    (g := fun t => t) (by
      intro t p hp
      have hlt : t < 2 := (List.getElem?_eq_some_iff.1 hp).1
      have : t = 0 ∨ t = 1 := by omega
      rcases this with rfl | rfl
      · obtain rfl : p = 2 := by simpa using hp.symm
        exact ⟨⟨0, 1, [0, 10]⟩, rfl, le_trans (by simp [townRig, townHunt, streetGap]) (town_reach 0)⟩
      · obtain rfl : p = 13 := by simpa using hp.symm
        exact ⟨⟨1, 2, [10, 20]⟩, rfl, le_trans (by simp [townRig, townHunt, streetGap]) (town_reach 1)⟩) (by
      intro t h0 ht
      replace ht : t < 2 := ht
      obtain rfl : t = 1 := by omega
      exact ⟨⟨0, 1, (100, [0, 10])⟩, ⟨1, 2, (100, [10, 20])⟩, 0, rfl, rfl, .stay _⟩)
  exact ⟨found, K, r, h8, h9, h10⟩

end MM.Prepare
