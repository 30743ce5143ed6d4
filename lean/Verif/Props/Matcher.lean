import Verif.Model.Matcher
import Verif.Props.TimeLimit
import Verif.Props.Route

/-!
# C69: matching of a track part by part
-/

set_option autoImplicit false
set_option linter.unusedSectionVars false

namespace MM.Matcher

open MM.TimeLimit MM.Route

variable {R : Type} [LinearOrder R] [Sub R] [Zero R] {T S Pol P : Type}

/-- The result of a computation that is never told that the time is over. -/
def calm {α : Type} : Asks α → α
  | .done a => a
  | .ask next => calm (next false)

/-- What a part gives when time plays no role: prepared part and policy. -/
def full (E : Engine T S Pol P) (t : T) : S × Pol := (calm (E.set t), calm (E.learn (calm (E.set t))))

/-- The limit was not noticed to be reached, and it is not by the last reading. -/
def Fresh (c : Clock R) : Prop := c.helper.reached = false ∧ ¬ (0 < c.helper.max ∧ c.helper.max ≤ elapsed c.helper)

theorem ask_true {c : Clock R} (h : c.ask.1 = true) : c.ask.2.helper.reached = true := by
  have := answer_reached (h := c.helper) (c := .updateAndReached (c.reading c.used)) (by simpa [call, Clock.ask] using h)
  simpa [call, Clock.ask] using this

theorem ask_keeps {c : Clock R} (h : c.helper.reached = true) : c.ask.2.helper.reached = true := by
  simp [Clock.ask, updateAndReached, reachedMax, h]

theorem ask_false {c : Clock R} (h : c.ask.1 = false) : c.helper.reached = false ∧ Fresh c.ask.2 := by
  cases hr : c.helper.reached with
  | true => simp [Clock.ask, updateAndReached, reachedMax, hr] at h
  | false =>
    refine ⟨rfl, ?_⟩
    simp only [Clock.ask, updateAndReached, reachedMax, hr, update] at h ⊢
    simp only [Bool.false_eq_true, if_false] at h ⊢
    refine ⟨h, ?_⟩
    rw [Bool.and_eq_false_iff] at h
    simp only [hasMax, elapsed] at h ⊢
    rintro ⟨h1, h2⟩
    rcases h with h | h
    · exact of_decide_eq_false h h1
    · exact of_decide_eq_false h h2

theorem ask_cases (c : Clock R) : c.ask.2.helper.reached = true ∨ (c.ask.1 = false ∧ Fresh c.ask.2) := by
  cases h : c.ask.1 with
  | true => exact .inl (ask_true h)
  | false => exact .inr ⟨rfl, (ask_false h).2⟩

/-- Either the limit was reached on the way, which stays so, or the computation was never told so. -/
theorem exec_cases {α : Type} (m : Asks α) : ∀ c : Clock R, (c.helper.reached = true ∨ Fresh c) →
    (exec m c).2.helper.reached = true ∨ ((exec m c).1 = calm m ∧ Fresh (exec m c).2) := by
  induction m with
  | done a => intro c hc; exact hc.imp id fun h => ⟨rfl, h⟩
  | ask next ih =>
    intro c _
    rw [exec, calm]
    rcases ask_cases c with h | ⟨h1, h2⟩
    · rcases ih c.ask.1 c.ask.2 (.inl h) with h' | ⟨_, h'⟩
      · exact .inl h'
      · left
        have : ∀ (n : Asks α) (d : Clock R), d.helper.reached = true → (exec n d).2.helper.reached = true := by
          intro n
          induction n with
          | done a => intro d hd; exact hd
          | ask next ihn => intro d hd; rw [exec]; exact ihn _ _ (ask_keeps hd)
        exact this _ _ h
    · rw [h1]
      exact ih false c.ask.2 (.inr h2)

theorem exec_keeps {α : Type} (n : Asks α) : ∀ d : Clock R, d.helper.reached = true → (exec n d).2.helper.reached = true := by
  induction n with
  | done a => intro d hd; exact hd
  | ask next ihn => intro d hd; rw [exec]; exact ihn _ _ (ask_keeps hd)

theorem part_cases (E : Engine T S Pol P) (t : T) {c : Clock R} (hc : Fresh c) :
    (matchPart E t c).2.helper.reached = true ∨ ((matchPart E t c).1 = full E t ∧ Fresh (matchPart E t c).2) := by
  unfold matchPart full
  rcases exec_cases (E.set t) c (.inr hc) with h | ⟨h1, h2⟩
  · left
    split_ifs
    · exact ask_keeps h
    · exact exec_keeps _ _ (ask_keeps h)
  · rw [h1]
    split_ifs with ha
    · exact .inl (ask_true ha)
    · have ha' : (exec (E.set t) c).2.ask.1 = false := by simpa using ha
      rcases exec_cases (E.learn (calm (E.set t))) _ (.inr (ask_false ha').2) with h | ⟨h3, h4⟩
      · exact .inl h
      · exact .inr ⟨by rw [h3], h4⟩

theorem reached_of {c : Clock R} (h : c.helper.reached = true) : c.reached.1 = true := by simp [Clock.reached, reachedMax, h]

theorem reached_fresh {c : Clock R} (h : Fresh c) : c.reached.1 = false ∧ Fresh c.reached.2 := by
  obtain ⟨h1, h2⟩ := h
  have hf : (hasMax c.helper && decide (c.helper.max ≤ elapsed c.helper)) = false := by
    rw [Bool.and_eq_false_iff]
    by_cases hm : 0 < c.helper.max
    · exact .inr (decide_eq_false fun hle => h2 ⟨hm, hle⟩)
    · exact .inl (decide_eq_false hm)
  simp only [Clock.reached, reachedMax, h1, Bool.false_eq_true, if_false, hf]
  exact ⟨trivial, rfl, h2⟩

/-- What is to be stored for a route: the route itself, or its edges if they are asked for. -/
def stored (x : Export P) (r : Route P) : Route P :=
  match x.edges with
  | true => x.route (x.list r)
  | false => r

/-- What is to be stored as identifiers: those of the edges if they are asked for. -/
def storedIds (x : Export P) (r : Route P) : List Nat :=
  match x.ids with
  | true => x.idsOf (x.list r)
  | false => []

theorem final_eq (x : Export P) (r : Route P) : x.final r = stored x r := by
  unfold Export.final stored; cases x.edges <;> rfl

theorem named_eq (x : Export P) (r : Route P) : x.named r = storedIds x r := by
  unfold Export.named storedIds; cases x.ids <;> rfl

/-- The routes of the parts that were matched in full. -/
def routes (E : Engine T S Pol P) (x : Export P) (ts : List T) : List (Route P) :=
  ts.map fun t => stored x (E.result (full E t).1 (full E t).2)

theorem loop_spec (E : Engine T S Pol P) (x : Export P) (ts : List T) : ∀ (k : Collected S Pol P) (c : Clock R),
    Fresh c → k.aborted = false →
    ((matchLoop E x ts k c).aborted = false ∧
        (matchLoop E x ts k c).prepared = k.prepared ++ ts.map (fun t => (full E t).1) ∧
        (matchLoop E x ts k c).policies = k.policies ++ ts.map (fun t => (full E t).2) ∧
        (matchLoop E x ts k c).matched = k.matched ++ routes E x ts ∧
        (matchLoop E x ts k c).ids = k.ids ++ ts.flatMap fun t => storedIds x (E.result (full E t).1 (full E t).2)) ∨
      ((matchLoop E x ts k c).aborted = true ∧ ∃ pre t post s p, ts = pre ++ t :: post ∧
        (matchLoop E x ts k c).prepared = k.prepared ++ pre.map (fun t => (full E t).1) ++ [s] ∧
        (matchLoop E x ts k c).policies = k.policies ++ pre.map (fun t => (full E t).2) ++ [p] ∧
        (matchLoop E x ts k c).matched = k.matched ++ routes E x pre ++ [stored x (E.result s p)] ∧
        (matchLoop E x ts k c).ids = k.ids ++ (pre.flatMap fun t => storedIds x (E.result (full E t).1 (full E t).2)) ++
          storedIds x (E.result s p)) := by
  induction ts with
  | nil => intro k c _ hk; left; simp [matchLoop, hk, routes]
  | cons t ts ih =>
    intro k c hc hk
    rw [matchLoop]
    rcases part_cases E t hc with h | ⟨h1, h2⟩
    · rw [if_pos (reached_of h)]
      right
      exact ⟨rfl, [], t, ts, (matchPart E t c).1.1, (matchPart E t c).1.2, rfl, by simp [Collected.add], by simp [Collected.add],
        by simp [Collected.add, routes, final_eq], by simp [Collected.add, named_eq]⟩
    · obtain ⟨h3, h4⟩ := reached_fresh h2
      rw [if_neg (by rw [h3]; simp), h1]
      rcases ih (k.add E x (full E t).1 (full E t).2) (matchPart E t c).2.reached.2 h4 hk with h | ⟨ha, pre, u, post, s, p, hts, hh⟩
      · left
        obtain ⟨a1, a2, a3, a4, a5⟩ := h
        refine ⟨a1, ?_, ?_, ?_, ?_⟩
        · rw [a2]; simp [Collected.add]
        · rw [a3]; simp [Collected.add]
        · rw [a4]; simp [Collected.add, routes, final_eq]
        · rw [a5]; simp [Collected.add, named_eq]
      · right
        obtain ⟨a2, a3, a4, a5⟩ := hh
        refine ⟨ha, t :: pre, u, post, s, p, by rw [hts]; rfl, ?_, ?_, ?_, ?_⟩
        · rw [a2]; simp [Collected.add]
        · rw [a3]; simp [Collected.add]
        · rw [a4]; simp [Collected.add, routes, final_eq]
        · rw [a5]; simp [Collected.add, named_eq]

/-! ### When the limit is reached -/

/-- The limit is `max` from the first reading on, and only reached if a reading says so. -/
def Honest (max : R) (reading : Nat → R) (c : Clock R) : Prop :=
  c.helper.max = max ∧ c.helper.start = reading 0 ∧ c.reading = reading ∧ (∃ n, c.helper.current = reading n) ∧
    (c.helper.reached = true → 0 < max ∧ ∃ n, max ≤ reading n - reading 0)

theorem reachedMax_honest {max : R} {reading : Nat → R} {h : Helper R} (h1 : h.max = max) (h2 : h.start = reading 0)
    (h4 : ∃ n, h.current = reading n) (h5 : h.reached = true → 0 < max ∧ ∃ n, max ≤ reading n - reading 0) :
    (reachedMax h).2.max = max ∧ (reachedMax h).2.start = reading 0 ∧ (∃ n, (reachedMax h).2.current = reading n) ∧
      ((reachedMax h).2.reached = true → 0 < max ∧ ∃ n, max ≤ reading n - reading 0) := by
  unfold reachedMax
  split_ifs with hr
  · exact ⟨h1, h2, h4, h5⟩
  · refine ⟨h1, h2, h4, fun hh => ?_⟩
    rw [Bool.and_eq_true] at hh
    obtain ⟨n, hn⟩ := h4
    have e1 : 0 < h.max := of_decide_eq_true hh.1
    have e2 : h.max ≤ h.current - h.start := of_decide_eq_true hh.2
    rw [h1] at e1
    rw [h1, hn, h2] at e2
    exact ⟨e1, n, e2⟩

theorem ask_honest {max : R} {reading : Nat → R} {c : Clock R} (h : Honest max reading c) : Honest max reading c.ask.2 := by
  obtain ⟨h1, h2, h3, h4, h5⟩ := h
  unfold Clock.ask updateAndReached
  split_ifs with hr
  · obtain ⟨a1, a2, a3, a4⟩ := reachedMax_honest h1 h2 h4 h5
    exact ⟨a1, a2, h3, a3, a4⟩
  · have hu : update c.helper (c.reading c.used) = { c.helper with current := c.reading c.used } := by
      rw [update, if_neg hr]
    rw [hu]
    obtain ⟨a1, a2, a3, a4⟩ := reachedMax_honest (h := { c.helper with current := c.reading c.used }) h1 h2
      ⟨c.used, by rw [h3]⟩ h5
    exact ⟨a1, a2, h3, a3, a4⟩

theorem reached_honest {max : R} {reading : Nat → R} {c : Clock R} (h : Honest max reading c) : Honest max reading c.reached.2 := by
  obtain ⟨h1, h2, h3, h4, h5⟩ := h
  obtain ⟨a1, a2, a3, a4⟩ := reachedMax_honest h1 h2 h4 h5
  exact ⟨a1, a2, h3, a3, a4⟩

theorem exec_honest {α : Type} {max : R} {reading : Nat → R} (n : Asks α) : ∀ c : Clock R, Honest max reading c →
    Honest max reading (exec n c).2 := by
  induction n with
  | done a => intro c h; exact h
  | ask next ih => intro c h; rw [exec]; exact ih _ _ (ask_honest h)

theorem part_honest {max : R} {reading : Nat → R} (E : Engine T S Pol P) (t : T) {c : Clock R} (h : Honest max reading c) :
    Honest max reading (matchPart E t c).2 := by
  unfold matchPart
  split_ifs
  · exact ask_honest (exec_honest _ _ h)
  · exact exec_honest _ _ (ask_honest (exec_honest _ _ h))

theorem loop_honest {max : R} {reading : Nat → R} (E : Engine T S Pol P) (x : Export P) (ts : List T) :
    ∀ (k : Collected S Pol P) (c : Clock R), Honest max reading c → k.aborted = false →
      (matchLoop E x ts k c).aborted = true → 0 < max ∧ ∃ n, max ≤ reading n - reading 0 := by
  induction ts with
  | nil => intro k c _ hk ha; rw [matchLoop, hk] at ha; simp at ha
  | cons t ts ih =>
    intro k c hc hk ha
    rw [matchLoop] at ha
    split_ifs at ha with hr
    · have h1 := reached_honest (part_honest E t hc)
      refine h1.2.2.2.2 ?_
      have := answer_reached (h := (matchPart E t c).2.helper) (c := .reached) (by simpa [call, Clock.reached] using hr)
      simpa [call, Clock.reached] using this
    · exact ih (k.add E x (matchPart E t c).1.1 (matchPart E t c).1.2) _ (reached_honest (part_honest E t hc)) hk ha

/-- As long as the limit is not reached, every reading so far was below it. -/
def Early (max : R) (reading : Nat → R) (c : Clock R) : Prop :=
  c.helper.max = max ∧ c.helper.start = reading 0 ∧ c.reading = reading ∧
    (c.helper.reached = false → ∀ n, 1 ≤ n → n < c.used → reading n - reading 0 < max)

theorem ask_early {max : R} {reading : Nat → R} (hm : 0 < max) {c : Clock R} (h : Early max reading c) :
    Early max reading c.ask.2 ∧ c.ask.2.used = c.used + 1 := by
  obtain ⟨h1, h2, h3, h4⟩ := h
  refine ⟨?_, rfl⟩
  cases hr : c.helper.reached with
  | true =>
    have e : c.ask.2.helper = c.helper := by simp [Clock.ask, updateAndReached, reachedMax, hr]
    refine ⟨by rw [e]; exact h1, by rw [e]; exact h2, h3, ?_⟩
    rw [e, hr]
    simp
  | false =>
    have e : c.ask.2.helper = { c.helper with current := c.reading c.used, reached := hasMax c.helper && decide (c.helper.max ≤ c.reading c.used - c.helper.start) } := by
      simp [Clock.ask, updateAndReached, reachedMax, hr, update, elapsed, hasMax]
    refine ⟨by rw [e]; exact h1, by rw [e]; exact h2, h3, ?_⟩
    rw [e]
    intro hf n hn hlt
    simp only [hasMax, h1, hm, decide_true, Bool.true_and, decide_eq_false_iff_not, not_le, h2, h3] at hf
    have hlt' : n < c.used + 1 := hlt
    rcases Nat.lt_succ_iff_lt_or_eq.1 hlt' with hlt' | rfl
    · exact h4 hr n hn hlt'
    · exact hf

theorem exec_early {α : Type} {max : R} {reading : Nat → R} (hm : 0 < max) (n : Asks α) : ∀ c : Clock R, Early max reading c →
    Early max reading (exec n c).2 ∧ c.used ≤ (exec n c).2.used := by
  induction n with
  | done a => intro c h; exact ⟨h, Nat.le_refl _⟩
  | ask next ih =>
    intro c h
    rw [exec]
    obtain ⟨h1, h2⟩ := ask_early hm h
    obtain ⟨h3, h4⟩ := ih c.ask.1 _ h1
    exact ⟨h3, by omega⟩

theorem part_early {max : R} {reading : Nat → R} (hm : 0 < max) (E : Engine T S Pol P) (t : T) {c : Clock R}
    (h : Early max reading c) : Early max reading (matchPart E t c).2 ∧ c.used + 1 ≤ (matchPart E t c).2.used := by
  obtain ⟨h1, h2⟩ := exec_early hm (E.set t) c h
  obtain ⟨h3, h4⟩ := ask_early hm h1
  unfold matchPart
  split_ifs
  · exact ⟨h3, by show _ ≤ (exec (E.set t) c).2.ask.2.used; omega⟩
  · obtain ⟨h5, h6⟩ := exec_early hm (E.learn (exec (E.set t) c).1) _ h3
    exact ⟨h5, Nat.le_trans (by omega) h6⟩

theorem reached_early {max : R} {reading : Nat → R} {c : Clock R} (h : Early max reading c) : Early max reading c.reached.2 := by
  obtain ⟨h1, h2, h3, h4⟩ := h
  unfold Clock.reached reachedMax
  split_ifs with hr
  · exact ⟨h1, h2, h3, h4⟩
  · exact ⟨h1, h2, h3, fun _ => h4 (by simpa using hr)⟩

theorem loop_early {max : R} {reading : Nat → R} (hm : 0 < max) (E : Engine T S Pol P) (x : Export P) (ts : List T) :
    ∀ (k : Collected S Pol P) (c : Clock R), Early max reading c → c.helper.reached = false →
      (matchLoop E x ts k c).aborted = false → ∀ n, 1 ≤ n → n < c.used + ts.length → reading n - reading 0 < max := by
  induction ts with
  | nil => intro k c h hr _ n hn hlt; exact h.2.2.2 hr n hn (by simpa using hlt)
  | cons t ts ih =>
    intro k c h hr ha n hn hlt
    rw [matchLoop] at ha
    obtain ⟨h1, h2⟩ := part_early hm E t h
    by_cases hc : (matchPart E t c).2.reached.1 = true
    · rw [if_pos hc] at ha
      cases ha
    · rw [if_neg hc] at ha
      refine ih _ _ (reached_early h1) ?_ ha n hn ?_
      · unfold Clock.reached reachedMax at hc ⊢
        split_ifs at hc ⊢
        · simp at hc
        · simpa using hc
      · have : (matchPart E t c).2.reached.2.used = (matchPart E t c).2.used := rfl
        rw [this]
        simp only [List.length_cons] at hlt
        omega

/-! ### The track -/

section
variable {K : Type} [LinearOrder K] [AddGroup K]

theorem start_fresh (max : K) (reading : Nat → K) : Fresh (⟨make max (reading 0), reading, 1⟩ : Clock K) := by
  refine ⟨rfl, ?_⟩
  simp only [make, elapsed, sub_self]
  exact fun h => absurd h.2 (not_le.2 h.1)

/-- **C69.**  If the result is not marked as aborted, every part of the track was matched, as if there were no time limit; the
results are in the order of the parts. -/
theorem not_aborted (E : Engine T S Pol P) (x : Export P) (max : K) (reading : Nat → K) (ts : List T)
    (h : (matchTrack E x max reading ts).aborted = false) :
    (matchTrack E x max reading ts).prepared = ts.map (fun t => (full E t).1) ∧
    (matchTrack E x max reading ts).policies = ts.map (fun t => (full E t).2) ∧
    (matchTrack E x max reading ts).matched = routes E x ts ∧
    (matchTrack E x max reading ts).ids = ts.flatMap fun t => storedIds x (E.result (full E t).1 (full E t).2) := by
  rcases loop_spec E x ts Collected.none _ (start_fresh max reading) rfl with ⟨_, h1, h2, h3, h4⟩ | ⟨ha, _⟩
  · exact ⟨h1, h2, h3, h4⟩
  · rw [matchTrack, ha] at h
    simp at h

/-- **C69.**  If it is marked as aborted, the parts before the last one that has a result were matched in full, and the parts
behind it have no results. -/
theorem aborted_prefix (E : Engine T S Pol P) (x : Export P) (max : K) (reading : Nat → K) (ts : List T)
    (h : (matchTrack E x max reading ts).aborted = true) :
    ∃ pre t post s p, ts = pre ++ t :: post ∧
      (matchTrack E x max reading ts).prepared = pre.map (fun t => (full E t).1) ++ [s] ∧
      (matchTrack E x max reading ts).policies = pre.map (fun t => (full E t).2) ++ [p] ∧
      (matchTrack E x max reading ts).matched = routes E x pre ++ [stored x (E.result s p)] ∧
      (matchTrack E x max reading ts).ids =
        (pre.flatMap fun t => storedIds x (E.result (full E t).1 (full E t).2)) ++ storedIds x (E.result s p) := by
  rcases loop_spec E x ts Collected.none _ (start_fresh max reading) rfl with ⟨ha, _⟩ | ⟨_, hh⟩
  · rw [matchTrack, ha] at h
    simp at h
  · exact hh

/-- **C69.**  It is marked as aborted only if there is a time limit and the clock passed it. -/
theorem aborted_late (E : Engine T S Pol P) (x : Export P) (max : K) (reading : Nat → K) (ts : List T)
    (h : (matchTrack E x max reading ts).aborted = true) : 0 < max ∧ ∃ n, max ≤ reading n - reading 0 :=
  loop_honest E x ts Collected.none _ ⟨rfl, rfl, rfl, ⟨0, rfl⟩, by simp [make]⟩ rfl h

/-- **C69.**  A track of `n` parts is matched without being marked only if the clock, read once for each part at least, was
always found below the limit. -/
theorem in_time (E : Engine T S Pol P) (x : Export P) {max : K} (hm : 0 < max) (reading : Nat → K) (ts : List T)
    (h : (matchTrack E x max reading ts).aborted = false) {n : Nat} (hn : 1 ≤ n) (hl : n ≤ ts.length) :
    reading n - reading 0 < max :=
  loop_early hm E x ts Collected.none _ ⟨rfl, rfl, rfl, fun _ n h1 h2 => absurd h2 (Nat.not_lt.2 h1)⟩ rfl h n hn
    (by simp only; omega)

/-- **C69.**  The match of a track that was not aborted consists of the lines of the matches of its parts, one after the
other; parts that travel nowhere add nothing.  (`Good`: the lines of a route are owned once and in order, or outside.) -/
theorem whole_match [DecidableEq P] (E : Engine T S Pol P) (x : Export P) (max : K) (reading : Nat → K) (ts : List T)
    (h : (matchTrack E x max reading ts).aborted = false) {ext : Ref P → Prop} {next : Nat}
    (hg : ∀ r ∈ routes E x ts, Good ext next r) (hv : ∃ r ∈ routes E x ts, r.invalid = false) :
    ∃ r, whole next (matchTrack E x max reading ts) = .ok r ∧ r.invalid = false ∧
      r.lines = ((routes E x ts).filter Route.mergeable).flatMap Route.lines := by
  obtain ⟨_, _, h3, _⟩ := not_aborted E x max reading ts h
  obtain ⟨r, n, h4, _, h5, h6⟩ := merge_lines hg hv
  exact ⟨r, by rw [whole, h3]; exact h4, h5, h6⟩

end

/-! ### Cases -/

/-- Parts are numbers; preparing and matching ask as often as the number says, and give up with zero. -/
def countdown : Nat → Nat → Asks Nat
  | 0, a => .done a
  | n + 1, a => .ask fun b => if b then .done 0 else countdown n a

def demo : Engine Nat Nat Nat Nat where
  set t := countdown 1 t
  learn s := countdown s (s + 100)
  empty := 0
  result s p := Route.ofRefs [⟨s, [s, p]⟩]

def plain : Export Nat := ⟨false, true, fun r => r.refs.map Ref.addr, fun _ => Route.bad, id⟩

example : (matchTrack demo plain (100 : Int) (fun n => n) [2, 3]).aborted = false ∧
    (matchTrack demo plain (100 : Int) (fun n => n) [2, 3]).policies = [102, 103] ∧
    (matchTrack demo plain (100 : Int) (fun n => n) [2, 3]).ids = [2, 3] ∧
    whole 20 (matchTrack demo plain (100 : Int) (fun n => n) [2, 3]) = .ok (Route.ofRefs [⟨2, [2, 102]⟩, ⟨3, [3, 103]⟩]) := by
  decide

example : (matchTrack demo plain (7 : Int) (fun n => n) [2, 3, 4]).aborted = true ∧
    (matchTrack demo plain (7 : Int) (fun n => n) [2, 3, 4]).policies = [102, 0] := by decide

/-- Without a time limit nothing is aborted. -/
example : (matchTrack demo plain (0 : Int) (fun n => n) [2, 3, 4]).policies = [102, 103, 104] := by decide

end MM.Matcher
