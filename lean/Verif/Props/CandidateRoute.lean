import Verif.Model.CandidateRoute
import Verif.Props.TrimMerge
import Verif.Props.Substring
import Mathlib.Data.Int.Order.Basic

/-!
# C67: the route between two candidates
-/

set_option autoImplicit false
set_option linter.unusedSectionVars false

namespace MM.Route

open MM.Line

variable {P : Type} [DecidableEq P] {R A : Type} [LinearOrder R]

/-- The lines lead from `p` to `q`: their points begin with `p` and end with `q`, or there are none and `p` is `q`. -/
def Leads (ls : List (List P)) (p q : P) : Prop :=
  (ls.flatten = [] ∧ p = q) ∨ (ls.flatten.head? = some p ∧ ls.flatten.getLast? = some q)

theorem leads_append {a b : List (List P)} {p q r : P} (ha : Leads a p q) (hb : Leads b q r) : Leads (a ++ b) p r := by
  unfold Leads at *
  rw [List.flatten_append]
  rcases ha with ⟨ha, rfl⟩ | ⟨ha1, ha2⟩
  · rw [ha, List.nil_append]; exact hb
  · rcases hb with ⟨hb, rfl⟩ | ⟨hb1, hb2⟩
    · rw [hb, List.append_nil]; exact .inr ⟨ha1, ha2⟩
    · refine .inr ⟨?_, ?_⟩
      · rw [List.head?_append, ha1]; rfl
      · rw [List.getLast?_append, hb2]; rfl

theorem last_nonempty (a : List (List P)) {l : List P} (h : (nonempty a).getLast? = some l) :
    a.flatten.getLast? = l.getLast? := by
  obtain ⟨u, hu⟩ := List.getLast?_eq_some_iff.1 h
  have hl : l ≠ [] := nonempty_all _ l (by rw [hu]; simp)
  rw [← flatten_nonempty, hu, List.flatten_append, List.getLast?_append]
  simp only [List.flatten_cons, List.flatten_nil, List.append_nil]
  cases hg : l.getLast? with
  | none => exact absurd (List.getLast?_eq_none_iff.1 hg) hl
  | some x => rfl

theorem first_nonempty (a : List (List P)) {l : List P} (h : (nonempty a).head? = some l) :
    a.flatten.head? = l.head? := by
  obtain ⟨u, hu⟩ : ∃ u, nonempty a = l :: u := ⟨_, List.eq_cons_of_mem_head? h⟩
  have hl : l ≠ [] := nonempty_all _ l (by rw [hu]; simp)
  rw [← flatten_nonempty, hu, List.flatten_cons, List.head?_append]
  cases l with
  | nil => exact absurd rfl hl
  | cons x xs => rfl

theorem connected_append {a b : List (List P)} {p q r : P} (ca : Connected a) (cb : Connected b) (ha : Leads a p q)
    (hb : Leads b q r) : Connected (a ++ b) := by
  unfold Connected
  rw [nonempty_append, List.isChain_append]
  refine ⟨ca, cb, ?_⟩
  intro x hx y hy
  have h1 := last_nonempty a hx
  have h2 := first_nonempty b hy
  have hxne : x ≠ [] := nonempty_all _ x (List.mem_of_mem_getLast? hx)
  have hyne : y ≠ [] := nonempty_all _ y (List.mem_of_mem_head? hy)
  rcases ha with ⟨ha, _⟩ | ⟨_, ha⟩
  · rw [ha] at h1
    exact absurd (List.getLast?_eq_none_iff.1 h1.symm) hxne
  · rcases hb with ⟨hb, _⟩ | ⟨hb, _⟩
    · rw [hb] at h2
      exact absurd (List.head?_eq_none_iff.1 h2.symm) hyne
    · rw [Meets, ← h1, ← h2, ha, hb]

/-- A valid, connected route from `p` to `q`, all of whose references are alive. -/
structure Leg (ext : Ref P → Prop) (r : Route P) (p q : P) : Prop where
  valid : r.invalid = false
  good : ∃ n, Good ext n r
  connected : Connected r.lines
  leads : Leads r.lines p q

theorem Leg.of_squash {ext : Ref P → Prop} {r : Route P} {p q : P} (hv : r.invalid = false) (hg : ∃ n, Good ext n r)
    (hc : Connected r.lines) {l : List P} (hl : squash (joined (nonempty r.lines)) = l)
    (hpq : (l = [] ∧ p = q) ∨ (l.head? = some p ∧ l.getLast? = some q)) : Leg ext r p q := by
  refine ⟨hv, hg, hc, ?_⟩
  rw [← squash_flatten hc] at hl
  rcases hpq with ⟨rfl, rfl⟩ | ⟨h1, h2⟩
  · refine .inl ⟨?_, rfl⟩
    cases h : r.lines.flatten with
    | nil => rfl
    | cons x xs =>
      have := squash_head? r.lines.flatten
      rw [hl, h] at this
      simp at this
  · refine .inr ⟨?_, ?_⟩
    · rw [← squash_head?, hl, h1]
    · rw [← squash_getLast?, hl, h2]

theorem Leg.points {ext : Ref P → Prop} {r : Route P} {p q : P} (h : Leg ext r p q) (hpq : p ≠ q) :
    ∃ pts, r.richLine = .ok pts ∧ pts.head? = some p ∧ pts.getLast? = some q := by
  refine ⟨_, richLine_connected h.connected, ?_, ?_⟩ <;>
  rcases h.leads with ⟨_, h2⟩ | ⟨h1, h2⟩
  · exact absurd h2 hpq
  · rw [← squash_head?, ← squash_flatten h.connected, squash_head?, h1]
  · exact absurd h2 hpq
  · rw [← squash_getLast?, ← squash_flatten h.connected, squash_getLast?, h2]

theorem tops {rs : List (Route P)} {next : Nat} {r : Route P} (h : r ∈ rs) :
    r.top ≤ rs.foldr (fun r n => max r.top n) next := by
  induction rs with
  | nil => simp at h
  | cons x xs ih =>
    rw [List.foldr_cons]
    rcases List.mem_cons.1 h with rfl | h
    · exact Nat.le_max_left _ _
    · exact (ih h).trans (Nat.le_max_right _ _)

theorem mergeAdjacent_ok {next : Nat} {rs : List (Route P)} {s : Route P}
    (h : merge false true (rs.foldr (fun r n => max r.top n) next) rs = .ok s) : mergeAdjacent next rs = .ok s := by
  rw [mergeAdjacent, if_neg, h]
  intro hc
  rw [Bool.and_eq_true] at hc
  have hall : rs.all Route.invalid = false := by simpa using hc.1
  rw [merge, hall, if_neg (by simp)] at h
  cases hl : mergeLoop false true rs ⟨[], [], rs.foldr (fun r n => max r.top n) next⟩ with
  | ok acc => rw [hl] at hc; simp [leftAtGap] at hc
  | throws => rw [hl] at h; simp at h
  | ub => rw [hl] at hc; simp [leftAtGap] at hc

/-- Routes with a gap between them give an invalid route, no exception. -/
theorem mergeAdjacent_gap {ext : Ref P → Prop} (next : Nat) {rs : List (Route P)} (hv : ∃ r ∈ rs, r.invalid = false)
    (hg : ∀ r ∈ rs, ∃ n, Good ext n r) (hgap : hasGap [] (usable rs)) : mergeAdjacent next rs = .ok Route.bad := by
  have hg' : ∀ r ∈ rs, Good ext (rs.foldr (fun r n => max r.top n) next) r :=
    fun r hr => by obtain ⟨n, hn⟩ := hg r hr; exact hn.top (tops hr)
  have hall : rs.all Route.invalid = false := by
    obtain ⟨r, hr, hi⟩ := hv
    rw [List.all_eq_false]
    exact ⟨r, hr, by simp [hi]⟩
  obtain ⟨_, _, _, h4⟩ := mergeLoop_spec false true rs _ (accGood_nil ext _) hg'
  have hth : mergeLoop false true rs ⟨[], [], rs.foldr (fun r n => max r.top n) next⟩ = .throws := by
    have := (h4 rfl rfl)
    simpa using this.2 hgap
  rw [mergeAdjacent, hth, hall]
  rfl

theorem merge_legs {ext : Ref P → Prop} (next : Nat) {rs : List (Route P)} {p q : P} (hne : rs ≠ [])
    (hg : ∀ r ∈ rs, r.invalid = false ∧ ∃ n, Good ext n r) (hc : Connected (rs.flatMap Route.lines))
    (hl : Leads (rs.flatMap Route.lines) p q) :
    ∃ s, mergeAdjacent next rs = .ok s ∧ Leg ext s p q ∧
      (p ≠ q → squash (joined (nonempty s.lines)) = squash (rs.flatMap Route.lines).flatten) := by
  obtain ⟨s, n, h1, h2, h3, _, h4, h5⟩ := merge_parts (ext := ext) (next := rs.foldr (fun r n => max r.top n) next) true
    (fun r hr => by obtain ⟨_, n, hn⟩ := hg r hr; exact hn.top (tops hr)) (fun r hr => (hg r hr).1) hne hc
  have hm : mergeAdjacent next rs = .ok s := mergeAdjacent_ok h1
  refine ⟨s, hm, Leg.of_squash h3 ⟨n, h2⟩ h4 h5 ?_, ?_⟩
  · generalize hz : (rs.flatMap Route.lines).flatten = z at *
    unfold moving
    rcases hl with ⟨h, rfl⟩ | ⟨ha, hb⟩
    · rw [hz] at h; subst h; exact .inl ⟨by simp [squash], rfl⟩
    · rw [hz] at ha hb
      rw [← squash_head?] at ha
      rw [← squash_getLast?] at hb
      split_ifs with ht
      · refine .inl ⟨rfl, ?_⟩
        cases hs : squash z with
        | nil => rw [hs] at ha; simp at ha
        | cons x xs =>
          rw [hs] at ha hb ht
          simp only [List.tail_cons] at ht
          subst ht
          simp at ha hb
          rw [← ha, ← hb]
      · exact .inr ⟨ha, hb⟩
  · intro hpq
    rw [h5, moving, if_neg]
    intro ht
    rcases hl with ⟨_, h⟩ | ⟨ha, hb⟩
    · exact hpq h
    · rw [← squash_head?] at ha
      rw [← squash_getLast?] at hb
      cases hs : squash (rs.flatMap Route.lines).flatten with
      | nil => rw [hs] at ha; simp at ha
      | cons x xs =>
        rw [hs] at ha hb ht
        simp only [List.tail_cons] at ht
        subst ht
        simp at ha hb
        exact hpq (ha ▸ hb ▸ rfl)

/-- Nothing is trimmed if one of the routes has no points. -/
theorem trim_none (G : Geo P R A) (turn : A → Bool) (next : Nat) {a b : Route P}
    (h : a.lines.flatten = [] ∨ b.lines.flatten = []) : trimMerge G turn next a b = .ok Route.bad := by
  have hf : findReturn a b = .nothing := by
    have h0 : ∀ r : Route P, r.lines.flatten = [] → positions 0 r.lines = [] := by
      intro r hr
      have := positions_pts r.lines 0
      rw [hr, pts, List.map_eq_nil_iff] at this
      exact this
    unfold findReturn
    split_ifs with h1 h2
    · rfl
    · rfl
    · rcases h with h | h
      · simp [h0 a h] at h2
      · simp [h0 b h] at h2
  rw [trimMerge, hf]

/-! ### References of trimmed routes

A route whose own lines come first can be cut without references to lines of the route that is cut. -/

/-- The own lines come first. -/
def Front (r : Route P) : Prop := ∃ rest, r.refs = r.own ++ rest

theorem front_of_no_own {r : Route P} (h : r.own = []) : Front r := ⟨r.refs, by rw [h]; rfl⟩

theorem copy_none (ext : Ref P → Prop) (refs : List (Ref P)) : ∀ acc : Acc P, (∀ x ∈ refs, ext x) →
    (∀ x ∈ acc.refs, x ∈ acc.own ∨ ext x) → ∀ x ∈ (copyRefs [] refs acc).refs, x ∈ (copyRefs [] refs acc).own ∨ ext x := by
  induction refs with
  | nil => intro acc _ h; simpa [copyRefs] using h
  | cons y ys ih =>
    intro acc h1 h2
    rw [copyRefs, searchOwn]
    refine ih _ (fun x hx => h1 x (List.mem_cons_of_mem _ hx)) ?_
    intro x hx
    rcases List.mem_append.1 hx with hx | hx
    · exact h2 x hx
    · rw [List.mem_singleton.1 hx]; exact .inr (h1 y List.mem_cons_self)

theorem copy_front (ext : Ref P → Prop) (own : List (Ref P)) (rest : List (Ref P)) (hr : ∀ x ∈ rest, ext x) :
    ∀ (b : Nat) (acc : Acc P), (∀ x ∈ acc.refs, x ∈ acc.own ∨ ext x) →
    ∀ x ∈ (copyRefs own ((own ++ rest).take b) acc).refs, x ∈ (copyRefs own ((own ++ rest).take b) acc).own ∨ ext x := by
  induction own with
  | nil =>
    intro b acc h
    exact copy_none ext _ acc (fun x hx => hr x (List.mem_of_mem_take hx)) h
  | cons o os ih =>
    intro b acc h
    cases b with
    | zero => simpa [copyRefs] using h
    | succ b =>
      rw [List.cons_append, List.take_succ_cons, copyRefs, searchOwn, if_pos rfl]
      refine ih b _ ?_
      intro x hx
      rcases List.mem_append.1 hx with hx | hx
      · exact (h x hx).imp_left (fun h => List.mem_append_left _ h)
      · exact .inl (List.mem_append_right _ hx)

theorem rest_ext {ext : Ref P → Prop} {n : Nat} {r : Route P} (hg : Good ext n r) {rest : List (Ref P)}
    (h : r.refs = r.own ++ rest) : ∀ x ∈ rest, ext x := by
  have hord := hg.order
  rw [h, List.filter_append, List.filter_eq_self.2 (fun x hx => by simpa using ⟨x, hx, rfl⟩)] at hord
  have hnil : rest.filter (fun x => decide (x.addr ∈ r.own.map Ref.addr)) = [] := by
    have := congrArg List.length hord
    rw [List.length_append] at this
    exact List.eq_nil_of_length_eq_zero (by omega)
  intro x hx
  refine hg.split x (by rw [h]; exact List.mem_append_right _ hx) ?_
  have := List.filter_eq_nil_iff.1 hnil x hx
  simpa using this

theorem front_alive {ext : Ref P → Prop} {n : Nat} {r : Route P} (hg : Good ext n r) (hf : Front r) (b k : Nat) (m : Route P)
    (h : subRoute r 0 b k = .ok m) : ∀ x ∈ m.refs, x ∈ m.own ∨ ext x := by
  obtain ⟨rest, hrest⟩ := hf
  have hext := rest_ext hg hrest
  rw [subRoute] at h
  split_ifs at h
  rw [build] at h
  split_ifs at h
  simp only [Outcome.ok.injEq] at h
  subst h
  rw [hrest, List.drop_zero]
  exact copy_front ext _ _ hext _ _ (by simp)

theorem no_own_alive {ext : Ref P → Prop} {n : Nat} {r : Route P} (hg : Good ext n r) (hf : r.own = []) (a k : Nat)
    (m : Route P) (h : subRoute r a r.refs.length k = .ok m) : ∀ x ∈ m.refs, x ∈ m.own ∨ ext x := by
  intro x hx
  refine (subRoute_alive hg h x hx).imp_right ?_
  rintro (h | h)
  · exact h
  · rw [hf] at h; simp at h

theorem copy_no_own (refs : List (Ref P)) : ∀ acc : Acc P, (copyRefs [] refs acc).own = acc.own := by
  induction refs with
  | nil => intro acc; rfl
  | cons y ys ih => intro acc; rw [copyRefs, searchOwn]; exact ih _

theorem subRoute_no_own {r : Route P} (hr : r.own = []) {a b k : Nat} {m : Route P} (h : subRoute r a b k = .ok m) :
    m.own = [] := by
  rw [subRoute] at h
  split_ifs at h
  rw [build] at h
  split_ifs at h
  simp only [Outcome.ok.injEq] at h
  subst h
  rw [hr]
  exact copy_no_own _ _

/-! #### Merging -/

theorem move_none (refs : List (Ref P)) : ∀ acc : Acc P, moveRefs [] refs acc = ⟨acc.own, acc.refs ++ refs, acc.next⟩ := by
  induction refs with
  | nil => intro acc; simp [moveRefs]
  | cons y ys ih => intro acc; rw [moveRefs, ih]; simp

theorem move_front (own rest : List (Ref P)) : ∀ acc : Acc P, ∃ new k, moveRefs own (own ++ rest) acc =
    ⟨acc.own ++ new, acc.refs ++ new ++ rest, k⟩ := by
  induction own with
  | nil => intro acc; exact ⟨[], acc.next, by simp [move_none]⟩
  | cons o os ih =>
    intro acc
    obtain ⟨new, k, h⟩ := ih ⟨acc.own ++ [⟨acc.next, o.line⟩], acc.refs ++ [⟨acc.next, o.line⟩], acc.next + 1⟩
    exact ⟨⟨acc.next, o.line⟩ :: new, k, by rw [List.cons_append, moveRefs, if_pos rfl, h]; simp⟩

theorem bridge_same {except : Bool} {acc acc' : Acc P} {r : Route P} (h : bridge false except acc r = .ok acc') : acc' = acc := by
  unfold bridge at h
  split at h
  · exact (Outcome.ok.inj h).symm
  · cases except
    · simp at h; exact h.symm
    · simp at h

theorem merge_acc {except : Bool} {next : Nat} {rs : List (Route P)} {s : Route P} (h : merge false except next rs = .ok s) :
    (s.own = [] ∧ s.refs = []) ∨ ∃ acc, mergeLoop false except rs ⟨[], [], next⟩ = .ok acc ∧ s.own = acc.own ∧ s.refs = acc.refs := by
  rw [merge] at h
  split_ifs at h
  · left
    rw [← Outcome.ok.inj h]
    exact ⟨rfl, rfl⟩
  · right
    cases hl : mergeLoop false except rs ⟨[], [], next⟩ with
    | ok acc =>
      rw [hl, Outcome.bind_ok, build] at h
      split_ifs at h
      rw [← Outcome.ok.inj h]
      exact ⟨acc, rfl, rfl, rfl⟩
    | throws => rw [hl] at h; simp at h
    | ub => rw [hl] at h; simp at h

theorem loop_no_own {except : Bool} (rs : List (Route P)) : ∀ (acc acc' : Acc P), (∀ r ∈ rs, r.own = []) → acc.own = [] →
    mergeLoop false except rs acc = .ok acc' → acc'.own = [] := by
  induction rs with
  | nil => intro acc acc' _ h1 h2; rw [mergeLoop] at h2; rw [← Outcome.ok.inj h2]; exact h1
  | cons r rs ih =>
    intro acc acc' h0 h1 h2
    have h0' : ∀ x ∈ rs, x.own = [] := fun x hx => h0 x (List.mem_cons_of_mem _ hx)
    rw [mergeLoop] at h2
    split_ifs at h2
    · cases hb : bridge false except acc r with
      | ok acc1 =>
        rw [hb, Outcome.bind_ok, h0 r List.mem_cons_self, move_none] at h2
        refine ih _ _ h0' ?_ h2
        rw [bridge_same hb]; exact h1
      | throws => rw [hb] at h2; simp at h2
      | ub => rw [hb] at h2; simp at h2
    · exact ih _ _ h0' h1 h2

theorem loop_all_own {except : Bool} (rs : List (Route P)) : ∀ (acc acc' : Acc P), (∀ r ∈ rs, r.refs = r.own) →
    acc.refs = acc.own → mergeLoop false except rs acc = .ok acc' → acc'.refs = acc'.own := by
  induction rs with
  | nil => intro acc acc' _ h1 h2; rw [mergeLoop] at h2; rw [← Outcome.ok.inj h2]; exact h1
  | cons r rs ih =>
    intro acc acc' h0 h1 h2
    have h0' : ∀ x ∈ rs, x.refs = x.own := fun x hx => h0 x (List.mem_cons_of_mem _ hx)
    rw [mergeLoop] at h2
    split_ifs at h2
    · cases hb : bridge false except acc r with
      | ok acc1 =>
        rw [hb, Outcome.bind_ok, h0 r List.mem_cons_self] at h2
        obtain ⟨new, k, hm⟩ := move_front r.own [] acc1
        rw [List.append_nil] at hm
        rw [hm] at h2
        refine ih _ _ h0' ?_ h2
        rw [bridge_same hb]; simp [h1]
      | throws => rw [hb] at h2; simp at h2
      | ub => rw [hb] at h2; simp at h2
    · exact ih _ _ h0' h1 h2

/-- Own lines, then a route whose own lines come first. -/
theorem loop_front {except : Bool} (b : Route P) (hb : Front b) (rs : List (Route P)) : ∀ (acc acc' : Acc P),
    (∀ r ∈ rs, r.refs = r.own) → acc.refs = acc.own →
    mergeLoop false except (rs ++ [b]) acc = .ok acc' → ∃ rest, acc'.refs = acc'.own ++ rest := by
  induction rs with
  | nil =>
    intro acc acc' _ h1 h2
    rw [List.nil_append, mergeLoop] at h2
    split_ifs at h2
    · cases hbr : bridge false except acc b with
      | ok acc1 =>
        obtain ⟨rest, hrest⟩ := hb
        rw [hbr, Outcome.bind_ok, hrest] at h2
        obtain ⟨new, k, hm⟩ := move_front b.own rest acc1
        rw [hm, mergeLoop] at h2
        rw [← Outcome.ok.inj h2, bridge_same hbr]
        exact ⟨rest, by simp [h1]⟩
      | throws => rw [hbr] at h2; simp at h2
      | ub => rw [hbr] at h2; simp at h2
    · rw [mergeLoop] at h2
      rw [← Outcome.ok.inj h2]
      exact ⟨[], by simp [h1]⟩
  | cons r rs ih =>
    intro acc acc' h0 h1 h2
    have h0' : ∀ x ∈ rs, x.refs = x.own := fun x hx => h0 x (List.mem_cons_of_mem _ hx)
    rw [List.cons_append, mergeLoop] at h2
    split_ifs at h2
    · cases hb : bridge false except acc r with
      | ok acc1 =>
        rw [hb, Outcome.bind_ok, h0 r List.mem_cons_self] at h2
        obtain ⟨new, k, hm⟩ := move_front r.own [] acc1
        rw [List.append_nil] at hm
        rw [hm] at h2
        refine ih _ _ h0' ?_ h2
        rw [bridge_same hb]; simp [h1]
      | throws => rw [hb] at h2; simp at h2
      | ub => rw [hb] at h2; simp at h2
    · exact ih _ _ h0' h1 h2

theorem merge_no_own {except : Bool} {next : Nat} {rs : List (Route P)} {s : Route P} (h0 : ∀ r ∈ rs, r.own = [])
    (h : merge false except next rs = .ok s) : s.own = [] := by
  rcases merge_acc h with h | ⟨acc, h1, h2, _⟩
  · exact h.1
  · rw [h2]; exact loop_no_own _ _ _ h0 rfl h1

theorem merge_all_own {except : Bool} {next : Nat} {rs : List (Route P)} {s : Route P} (h0 : ∀ r ∈ rs, r.refs = r.own)
    (h : merge false except next rs = .ok s) : s.refs = s.own := by
  rcases merge_acc h with h | ⟨acc, h1, h2, h3⟩
  · rw [h.1, h.2]
  · rw [h2, h3]; exact loop_all_own _ _ _ h0 rfl h1

theorem merge_front {except : Bool} {next : Nat} {a b : Route P} {s : Route P} (ha : a.refs = a.own) (hb : Front b)
    (h : merge false except next [a, b] = .ok s) : Front s := by
  rcases merge_acc h with h | ⟨acc, h1, h2, h3⟩
  · exact ⟨[], by rw [h.1, h.2]; rfl⟩
  · obtain ⟨rest, hr⟩ := loop_front b hb [a] _ _ (by simpa using ha) rfl h1
    exact ⟨rest, by rw [h2, h3, hr]⟩

/-! #### Parts -/

theorem start_part (x : Ref P) {k next : Nat} {s : Route P} (h : subRouteAt (Route.ofRefs [x]) 0 0 1 k next = .ok s) :
    (k < x.line.length → s.refs = s.own) ∧ (¬ k < x.line.length → s.own = [] ∧ s.refs.length ≤ 1) := by
  rw [subRouteAt] at h
  have hin : inRange (Route.ofRefs [x]) 0 0 1 k = true := by
    by_contra hc
    rw [if_neg hc] at h
    simp at h
  rw [if_pos hin] at h
  have h0 : (Route.ofRefs [x]).refs[0]? = some x := rfl
  have h1 : lineBefore (Route.ofRefs [x]) 1 = some x.line := rfl
  have hs0 : subRoute (Route.ofRefs [x]) 0 0 (next + 1) = .ok ⟨[], [], false⟩ := rfl
  have hs1 : subRoute (Route.ofRefs [x]) 0 1 (next + 1) = .ok ⟨[], [x], false⟩ := rfl
  rw [h0] at h
  simp only [headPart, Nat.lt_irrefl, if_false, Outcome.bind_ok, h1, tailParts] at h
  by_cases hk : k < x.line.length
  · refine ⟨fun _ => ?_, fun h => absurd hk h⟩
    rw [if_pos hk, hs0, Outcome.bind_ok] at h
    cases hsub : subLine x.line 0 k with
    | ok l =>
      rw [hsub] at h
      simp only [Outcome.map_ok, Outcome.bind_ok, List.nil_append] at h
      exact merge_all_own (by simp [Route.ofOwn]) h
    | throws => rw [hsub] at h; simp at h
    | ub => rw [hsub] at h; simp at h
  · refine ⟨fun h => absurd h hk, fun _ => ?_⟩
    rw [if_neg hk, if_pos (by simp [Route.ofRefs]), hs1, Outcome.map_ok, Outcome.bind_ok, List.nil_append] at h
    refine ⟨merge_no_own (by simp) h, ?_⟩
    rcases merge_acc h with h | ⟨acc, g1, g2, g3⟩
    · rw [h.2]; simp
    · rw [g3]
      rw [mergeLoop] at g1
      split_ifs at g1
      · have hb : bridge false false (⟨[], [], next + 2 + (Route.ofRefs [x]).refs.length⟩ : Acc P) ⟨[], [x], false⟩ =
          .ok ⟨[], [], next + 2 + (Route.ofRefs [x]).refs.length⟩ := rfl
        rw [hb, Outcome.bind_ok, move_none, mergeLoop] at g1
        rw [← Outcome.ok.inj g1]; simp
      · rw [mergeLoop] at g1
        rw [← Outcome.ok.inj g1]; simp

theorem end_part {r : Route P} (hr : r.own = []) {i j next : Nat} {s : Route P}
    (h : subRouteAt r i j r.refs.length (((r.refs.getLast?).map (fun r => r.line.length)).getD 0) next = .ok s) :
    Front s ∧ (j = 0 → s.own = []) := by
  rw [subRouteAt] at h
  have hin : inRange r i j r.refs.length (((r.refs.getLast?).map (fun r => r.line.length)).getD 0) = true := by
    by_contra hc
    rw [if_neg hc] at h
    simp at h
  rw [if_pos hin] at h
  cases hi : r.refs[i]? with
  | none => rw [hi] at h; simp at h
  | some ref =>
    rw [hi] at h
    have hlen : 0 < r.refs.length := by
      cases hh : r.refs with
      | nil => rw [hh] at hi; simp at hi
      | cons a b => simp
    have hb : lineBefore r r.refs.length = (r.refs.getLast?).map Ref.line := by
      unfold lineBefore
      rw [if_neg (by omega), List.getLast?_eq_getElem?]
    have htail : ∀ a k ts, tailParts r a r.refs.length (lineBefore r r.refs.length)
        (((r.refs.getLast?).map (fun r => r.line.length)).getD 0) k = .ok ts → ts = [] ∨ ∃ m, ts = [m] ∧ m.own = [] := by
      intro a k ts ht
      have hrest : (if a < r.refs.length then (subRoute r a r.refs.length k).map fun mid => [mid] else .ok []) = .ok ts →
          ts = [] ∨ ∃ m, ts = [m] ∧ m.own = [] := by
        intro ht
        split_ifs at ht
        · cases hs : subRoute r a r.refs.length k with
          | ok m =>
            rw [hs, Outcome.map_ok] at ht
            exact .inr ⟨m, (Outcome.ok.inj ht).symm, subRoute_no_own hr hs⟩
          | throws => rw [hs] at ht; simp at ht
          | ub => rw [hs] at ht; simp at ht
        · exact .inl (Outcome.ok.inj ht).symm
      rw [hb] at ht
      cases hg : r.refs.getLast? with
      | none => rw [hg] at ht; exact hrest ht
      | some z =>
        rw [hg] at ht
        simp only [Option.map_some, Option.getD_some, tailParts, Nat.lt_irrefl, if_false] at ht
        exact hrest ht
    simp only at h
    by_cases hj : 0 < j
    · refine ⟨?_, fun h => by omega⟩
      rw [headPart, if_pos hj] at h
      cases hsub : subLine ref.line j ref.line.length with
      | ok l =>
        rw [hsub] at h
        simp only [Outcome.map_ok, Outcome.bind_ok] at h
        cases ht : tailParts r (if 0 < j then i + 1 else i) r.refs.length (lineBefore r r.refs.length)
            (((r.refs.getLast?).map (fun r => r.line.length)).getD 0) (next + 1) with
        | ok ts =>
          rw [ht, Outcome.bind_ok] at h
          rcases htail _ _ _ ht with rfl | ⟨m, rfl, hm⟩
          · rw [List.append_nil] at h
            exact ⟨[], by rw [merge_all_own (by simp [Route.ofOwn]) h]; simp⟩
          · exact merge_front (by rfl) (front_of_no_own hm) h
        | throws => rw [ht] at h; simp at h
        | ub => rw [ht] at h; simp at h
      | throws => rw [hsub] at h; simp at h
      | ub => rw [hsub] at h; simp at h
    · have hown : s.own = [] := by
        rw [headPart, if_neg hj, Outcome.bind_ok] at h
        cases ht : tailParts r (if 0 < j then i + 1 else i) r.refs.length (lineBefore r r.refs.length)
            (((r.refs.getLast?).map (fun r => r.line.length)).getD 0) (next + 1) with
        | ok ts =>
          rw [ht, Outcome.bind_ok, List.nil_append] at h
          rcases htail _ _ _ ht with rfl | ⟨m, rfl, hm⟩
          · exact merge_no_own (by simp) h
          · exact merge_no_own (by simpa using hm) h
        | throws => rw [ht] at h; simp at h
        | ub => rw [ht] at h; simp at h
      exact ⟨front_of_no_own hown, fun _ => hown⟩

theorem turn_parts (G : Geo P R A) (turn : A → Bool) (next : Nat) {a b : Route P}
    (ha : a.refs = a.own ∨ (a.own = [] ∧ a.refs.length ≤ 1)) (hb : Front b) :
    trimTurn G turn next a b = (a, b) ∨
      ((trimTurn G turn next a b).1.refs = (trimTurn G turn next a b).1.own ∧ Front (trimTurn G turn next a b).2) := by
  unfold trimTurn
  cases hla : a.refs.getLast? with
  | none => exact .inl rfl
  | some ra =>
    cases hfb : b.refs.head? with
    | none => exact .inl rfl
    | some rb =>
      simp only
      split_ifs with hrev
      · unfold join
        split_ifs with hinv
        · exact .inl rfl
        · rw [hla, hfb]
          simp only
          split_ifs with h1 h2
          · exact .inl rfl
          · exact absurd h2 (by simp)
          · right
            refine ⟨?_, ?_⟩
            · simp only [replaceLast]
              have hboth : (if (a.own.getLast?.map Ref.addr) = some ra.addr then a.own.dropLast else a.own) = a.refs.dropLast := by
                rcases ha with ha | ⟨ha, hle⟩
                · rw [← ha, hla]; simp
                · rw [ha]
                  have : a.refs.dropLast = [] := List.eq_nil_of_length_eq_zero (by rw [List.length_dropLast]; omega)
                  rw [this]; simp
              rw [hboth]
              split_ifs <;> rfl
            · simp only [replaceFirst]
              obtain ⟨rest, hrest⟩ := hb
              have hboth : ∃ rest', b.refs.tail =
                  (if (b.own.head?.map Ref.addr) = some rb.addr then b.own.tail else b.own) ++ rest' := by
                cases ho : b.own with
                | nil => exact ⟨b.refs.tail, by simp⟩
                | cons o os =>
                  rw [hrest, ho] at hfb
                  simp at hfb
                  subst hfb
                  exact ⟨rest, by rw [hrest, ho]; simp⟩
              obtain ⟨rest', hr'⟩ := hboth
              generalize (if (b.own.head?.map Ref.addr) = some rb.addr then b.own.tail else b.own) = o at hr' ⊢
              split_ifs with h3
              · exact ⟨rest', hr'⟩
              · exact ⟨rest', by simp only; rw [hr']; rfl⟩
      · exact .inl rfl

theorem positionsIn_append (i : Nat) (a b : List P) : ∀ j : Nat,
    positionsIn i j (a ++ b) = positionsIn i j a ++ positionsIn i (j + a.length) b := by
  induction a with
  | nil => intro j; simp [positionsIn]
  | cons x xs ih => intro j; simp only [List.cons_append, positionsIn, ih, List.length_cons]; rw [Nat.add_right_comm]; rfl

theorem positionsIn_lt (i : Nat) (a : List P) : ∀ j : Nat, ∀ x ∈ positionsIn i j a, x.1.2 < j + a.length := by
  induction a with
  | nil => intro j x hx; simp [positionsIn] at hx
  | cons y ys ih =>
    intro j x hx
    rw [positionsIn] at hx
    rcases List.mem_cons.1 hx with rfl | hx
    · simp
    · have := ih (j + 1) x hx
      simp only [List.length_cons]
      omega

theorem skipSame_mem (p : P) (as : List (Pos × P)) : ∀ cur : Pos,
    ((skipSame p cur as).1 = cur ∨ (skipSame p cur as).1 ∈ as.map Prod.fst) ∧ (skipSame p cur as).2 ⊆ as := by
  induction as with
  | nil => intro cur; simp [skipSame]
  | cons x xs ih =>
    intro cur
    rw [skipSame]
    split_ifs
    · obtain ⟨h1, h2⟩ := ih x.1
      refine ⟨.inr ?_, fun y hy => List.mem_cons_of_mem _ (h2 hy)⟩
      rcases h1 with h1 | h1
      · rw [h1]; simp
      · simp only [List.map_cons]; exact List.mem_cons_of_mem _ h1
    · exact ⟨.inl rfl, fun y hy => hy⟩

theorem walk_mem (fuel : Nat) : ∀ (as bs : List (Pos × P)) (s e : Pos), walk fuel as bs = some (s, e) → s ∈ as.map Prod.fst := by
  induction fuel with
  | zero => intro as bs s e h; simp [walk] at h
  | succ fuel ih =>
    intro as bs s e h
    cases as with
    | nil => simp [walk] at h
    | cons a as =>
      cases bs with
      | nil => simp [walk] at h
      | cons b bs =>
        obtain ⟨h1, h2⟩ := skipSame_mem a.2 as a.1
        have hfirst : (skipSame a.2 a.1 as).1 ∈ (a :: as).map Prod.fst := by
          rcases h1 with h1 | h1
          · rw [h1]; simp
          · exact List.mem_cons_of_mem _ h1
        rw [walk] at h
        split_ifs at h
        · injection h with h; injection h with h _; rw [← h]; exact hfirst
        · injection h with h; injection h with h _; rw [← h]; exact hfirst
        · cases hw : walk fuel (skipSame a.2 a.1 as).2 (skipSame b.2 b.1 bs).2 with
          | none =>
            rw [hw] at h
            injection h with h; injection h with h _; rw [← h]; exact hfirst
          | some se =>
            rw [hw] at h
            injection h with h
            have := ih _ _ se.1 se.2 hw
            obtain ⟨z, hz, hz2⟩ := List.mem_map.1 this
            simp only [Option.getD_some] at h
            rw [h] at hz2
            exact List.mem_cons_of_mem _ (List.mem_map.2 ⟨z, h2 hz, hz2⟩)

/-- If the walk ends at the last point of the first route, it does so at the first point of the second. -/
theorem walk_start {fuel : Nat} {a b b2 : Pos × P} {as bs : List (Pos × P)} {s e : Pos}
    (h : walk fuel (a :: as) (b :: b2 :: bs) = some (s, e)) (hb : b2.2 ≠ b.2) (ha : ∀ x ∈ as, x.1.2 < s.2) : e = b.1 := by
  cases fuel with
  | zero => simp [walk] at h
  | succ fuel =>
    have hskip : skipSame b.2 b.1 (b2 :: bs) = (b.1, b2 :: bs) := by rw [skipSame, if_neg hb]
    rw [walk, hskip] at h
    split_ifs at h
    · injection h with h; injection h with _ h; exact h.symm
    · injection h with h; injection h with _ h; exact h.symm
    · obtain ⟨_, h2⟩ := skipSame_mem a.2 as a.1
      simp only at h
      cases hw : walk fuel (skipSame a.2 a.1 as).2 (b2 :: bs) with
      | none =>
        rw [hw] at h
        injection h with h; injection h with _ h; exact h.symm
      | some se =>
        rw [hw] at h
        injection h with h
        have := walk_mem fuel _ _ se.1 se.2 hw
        obtain ⟨z, hz, hz2⟩ := List.mem_map.1 this
        simp only [Option.getD_some] at h
        rw [h] at hz2
        have := ha z (h2 hz)
        rw [hz2] at this
        exact absurd this (Nat.lt_irrefl _)

/-- A single line and a route of references to lines without repeated points, trimmed: own lines come first. -/
theorem trimmed_front (G : Geo P R A) (turn : A → Bool) {next : Nat} {x : Ref P} {m s : Route P} (hm : m.own = [])
    (hl : ∀ l ∈ m.lines, 2 ≤ l.length ∧ l.IsChain (· ≠ ·)) (h : trimMerge G turn next (Route.ofRefs [x]) m = .ok s) :
    Front s := by
  rw [trimMerge] at h
  cases hf : findReturn (Route.ofRefs [x]) m with
  | nothing => rw [hf] at h; rw [← Outcome.ok.inj h]; exact ⟨[], rfl⟩
  | unset => rw [hf] at h; simp at h
  | parts ps pe =>
    rw [hf] at h
    simp only at h
    -- the positions
    have hfind : walk (positions 0 (Route.ofRefs [x]).lines).length (positions 0 (Route.ofRefs [x]).lines).reverse
        (positions 0 m.lines) = some (ps, pe) := by
      unfold findReturn at hf
      split_ifs at hf
      revert hf
      generalize walk (positions 0 (Route.ofRefs [x]).lines).length (positions 0 (Route.ofRefs [x]).lines).reverse
        (positions 0 m.lines) = w
      intro hf
      cases w with
      | none => simp at hf
      | some w => obtain ⟨w1, w2⟩ := w; simp at hf; rw [hf.1, hf.2]
    have hpx : positions 0 (Route.ofRefs [x]).lines = positionsIn 0 0 x.line := by
      simp [Route.ofRefs, Route.lines, positions]
    rw [hpx] at hfind
    have hp0 : ps.1 = 0 := by
      have := walk_mem _ _ _ _ _ hfind
      have hz : ∀ (l : List P) (j : Nat), ∀ y ∈ positionsIn 0 j l, y.1.1 = 0 := by
        intro l
        induction l with
        | nil => intro j y hy; simp [positionsIn] at hy
        | cons u v ih =>
          intro j y hy
          rw [positionsIn] at hy
          rcases List.mem_cons.1 hy with rfl | hy
          · rfl
          · exact ih _ y hy
      obtain ⟨y, hy, rfl⟩ := List.mem_map.1 this
      exact hz _ _ y (List.mem_reverse.1 hy)
    rw [hp0, Nat.zero_add] at h
    have hwhole : ¬ ps.2 + 1 < x.line.length → pe.2 = 0 := by
      intro hlt
      cases hml : m.lines with
      | nil =>
        rw [hml] at hfind
        simp only [positions] at hfind
        cases hh : (positionsIn 0 0 x.line).length with
        | zero => rw [hh] at hfind; simp [walk] at hfind
        | succ k => rw [hh] at hfind; cases hr : (positionsIn 0 0 x.line).reverse <;> rw [hr] at hfind <;> simp [walk] at hfind
      | cons l ls =>
        obtain ⟨hl1, hl2⟩ := hl l (by rw [hml]; simp)
        obtain ⟨u, v, rest, rfl⟩ : ∃ u v rest, l = u :: v :: rest := by
          match l, hl1 with
          | u :: v :: rest, _ => exact ⟨u, v, rest, rfl⟩
        rw [List.isChain_cons_cons] at hl2
        rw [hml] at hfind
        simp only [positions, positionsIn, List.cons_append] at hfind
        have hne : x.line ≠ [] := by
          intro h0
          rw [h0] at hfind
          simp [positionsIn, walk] at hfind
        obtain ⟨init, z, hz⟩ : ∃ init z, x.line = init ++ [z] := by
          rcases List.eq_nil_or_concat x.line with h | ⟨i, z, h⟩
          · exact absurd h hne
          · exact ⟨i, z, by simpa using h⟩
        have hrev : (positionsIn 0 0 x.line).reverse = ((0, init.length), z) :: (positionsIn 0 0 init).reverse := by
          rw [hz, positionsIn_append]
          simp [positionsIn]
        rw [hrev] at hfind
        have := walk_start hfind (fun h => hl2.1 h.symm) (by
          intro y hy
          have := positionsIn_lt 0 init 0 y (List.mem_reverse.1 hy)
          rw [hz] at hlt
          simp at hlt
          omega)
        rw [this]
    cases ha : subRouteAt (Route.ofRefs [x]) 0 0 1 (ps.2 + 1) next with
    | throws => rw [ha] at h; simp at h
    | ub => rw [ha] at h; simp at h
    | ok a' =>
      rw [ha, Outcome.bind_ok] at h
      cases hb : subRouteAt m pe.1 pe.2 m.refs.length (((m.refs.getLast?).map (fun r => r.line.length)).getD 0)
          (max next a'.top) with
      | throws => rw [hb] at h; simp at h
      | ub => rw [hb] at h; simp at h
      | ok b' =>
        rw [hb, Outcome.bind_ok, mergeTwo] at h
        obtain ⟨a1, a2⟩ := start_part x ha
        obtain ⟨b1, b2⟩ := end_part hm hb
        by_cases hlt : ps.2 + 1 < x.line.length
        · have hown := a1 hlt
          rcases turn_parts G turn (max next (max a'.top b'.top)) (.inl hown) b1 with ht | ⟨t1, t2⟩
          · rw [ht] at h
            exact merge_front hown b1 h
          · exact merge_front t1 t2 h
        · rcases turn_parts G turn (max next (max a'.top b'.top)) (.inr (a2 hlt)) b1 with ht | ⟨t1, t2⟩
          · rw [ht] at h
            refine front_of_no_own (merge_no_own ?_ h)
            simp only [List.mem_cons, List.not_mem_nil, or_false]
            rintro r (rfl | rfl)
            · exact (a2 hlt).1
            · exact b2 (hwhole hlt)
          · exact merge_front t1 t2 h

/-- Trimming two legs with points gives a leg. -/
theorem trim_legs (G : Geo P R A) (turn : A → Bool) {ext E : Ref P → Prop} {next : Nat} {a b : Route P} {p q r : P}
    (ha : Leg ext a p q) (hb : Leg ext b q r)
    (hEa : ∀ i k m, subRoute a 0 i k = .ok m → ∀ x ∈ m.refs, x ∈ m.own ∨ E x)
    (hEb : ∀ i k m, subRoute b i b.refs.length k = .ok m → ∀ x ∈ m.refs, x ∈ m.own ∨ E x) (hna : ∀ l ∈ a.lines, l ≠ []) (hnb : ∀ l ∈ b.lines, l ≠ [])
    (ta : a.top ≤ next) (tb : b.top ≤ next) (hca : a.lines.flatten ≠ []) (hcb : b.lines.flatten ≠ []) :
    ∃ s, trimMerge G turn next a b = .ok s ∧ Leg E s p r ∧
      (∀ l ∈ s.lines, l ≠ []) := by
  obtain ⟨na, ga⟩ := ha.good
  obtain ⟨nb, gb⟩ := hb.good
  have hfa : ∃ f, a.lines.head? = some f ∧ f ≠ [] := by
    cases h : a.lines with
    | nil => rw [h] at hca; simp at hca
    | cons x xs => exact ⟨x, rfl, hna x (by rw [h]; simp)⟩
  have hlb : ∃ f, b.lines.getLast? = some f ∧ f ≠ [] := by
    cases h : b.lines.getLast? with
    | none => rw [List.getLast?_eq_none_iff] at h; rw [h] at hcb; simp at hcb
    | some x => exact ⟨x, rfl, hnb x (List.mem_of_mem_getLast? h)⟩
  obtain ⟨f, hf1, hf2⟩ := hfa
  obtain ⟨e, he1, he2⟩ := hlb
  rcases ha.leads with ⟨h, _⟩ | ⟨pa1, pa2⟩
  · exact absurd h hca
  rcases hb.leads with ⟨h, _⟩ | ⟨pb1, pb2⟩
  · exact absurd h hcb
  have sa := squash_flatten ha.connected
  have sb := squash_flatten hb.connected
  have e1 : (squash (joined (nonempty a.lines))).head? = some p := by rw [← sa, squash_head?, pa1]
  have e2 : (squash (joined (nonempty b.lines))).getLast? = some r := by rw [← sb, squash_getLast?, pb2]
  obtain ⟨s, pp, w, x, ra, rb, h1, h2, _, h4, h5, _, h7, ⟨h8, h9⟩, h10, h11, h12, h13⟩ :=
    trim_merge_gen G turn (ga.top ta) (gb.top tb) le_rfl ha.valid hb.valid hEa hEb ha.connected hb.connected hf1 he1 hf2 he2
      (richLine_connected ha.connected) (richLine_connected hb.connected) (by
        rw [← squash_getLast?, ← sa, squash_getLast?, pa2, ← squash_head? (joined _), ← sb, squash_head?, pb1])
  have hpp : pp = joined (nonempty s.lines) := by
    have := richLine_connected h8; rw [h10] at this; exact Outcome.ok.inj this
  refine ⟨s, h4, ?_, ?_⟩
  · rw [hpp] at h11 h12 h13
    rw [h1] at e1
    rw [h2] at e2
    have hfirst : ∀ t, (ra ++ x :: t).head? = some p := by
      intro t
      cases ra with
      | nil => simpa using e1
      | cons u v => simpa using e1
    have hlast : ∀ t, (t ++ x :: rb).getLast? = some r := by
      intro t
      rw [List.getLast?_append] at e2 ⊢
      cases hz : (x :: rb).getLast? with
      | none => simp at hz
      | some z => rw [hz] at e2; simpa using e2
    by_cases ht : Turns G turn ra x rb
    · refine Leg.of_squash h5 h7 h8 (h12 ht) (.inr ?_)
      obtain ⟨y, z, hy, hz, _⟩ := ht
      constructor
      · have hne : ra ≠ [] := by rintro rfl; simp at hy
        obtain ⟨u, v, rfl⟩ := List.exists_cons_of_ne_nil hne
        simpa using e1
      · have hne : rb ≠ [] := by rintro rfl; simp at hz
        have := hlast []
        rw [List.nil_append, List.getLast?_cons_of_ne_nil hne] at this
        rw [List.getLast?_append, this]
        rfl
    · by_cases hb : ra = [] ∧ rb = []
      · refine Leg.of_squash h5 h7 h8 (h11 hb.1 hb.2) (.inl ⟨rfl, ?_⟩)
        have u1 := hfirst []
        have u2 := hlast []
        rw [hb.1] at u1
        rw [hb.2] at u2
        simp at u1 u2
        rw [← u1, ← u2]
      · refine Leg.of_squash h5 h7 h8 (h13 ht (by by_contra hcon; push Not at hcon; exact hb hcon)) (.inr ⟨hfirst _, hlast _⟩)
  · intro l hl
    rcases h9 l hl with h | h | h
    · exact h
    · exact hna l h
    · exact hnb l h

theorem ofRefs_leg {ext : Ref P → Prop} {x : Ref P} (h : ext x) {p q : P} (hl : Leads [x.line] p q) :
    Leg ext (Route.ofRefs [x]) p q := by
  refine ⟨rfl, ⟨x.addr + 1, by simp [Route.ofRefs], by simp [Route.ofRefs], by simpa [Route.ofRefs] using h,
    by simp [Route.ofRefs]⟩, ?_, by simpa [Route.ofRefs, Route.lines] using hl⟩
  simp only [Connected, nonempty, Route.ofRefs, Route.lines, List.map_cons, List.map_nil]
  by_cases h : x.line = []
  · simp [h]
  · simp [h]

theorem three_legs {ext : Ref P → Prop} (next : Nat) {a b c : Route P} {p q r t : P} (ha : Leg ext a p q) (hb : Leg ext b q r)
    (hc : Leg ext c r t) : ∃ s, mergeAdjacent next [a, b, c] = .ok s ∧ Leg ext s p t ∧
      (p ≠ t → squash (joined (nonempty s.lines)) = squash (a.lines ++ b.lines ++ c.lines).flatten) := by
  have hbc := leads_append hb.leads hc.leads
  have := merge_legs (ext := ext) next (rs := [a, b, c]) (p := p) (q := t) (by simp)
    (by
      simp only [List.mem_cons, List.not_mem_nil, or_false]
      rintro x (rfl | rfl | rfl)
      exacts [⟨ha.valid, ha.good⟩, ⟨hb.valid, hb.good⟩, ⟨hc.valid, hc.good⟩])
    (by
      simp only [List.flatMap_cons, List.flatMap_nil, List.append_nil]
      exact connected_append ha.connected (connected_append hb.connected hc.connected hb.leads hc.leads) ha.leads hbc)
    (by
      simp only [List.flatMap_cons, List.flatMap_nil, List.append_nil]
      exact leads_append ha.leads hbc)
  simpa only [List.flatMap_cons, List.flatMap_nil, List.append_nil, List.append_assoc] using this

theorem two_legs {ext : Ref P → Prop} (next : Nat) {a b : Route P} {p q r : P} (ha : Leg ext a p q) (hb : Leg ext b q r) :
    ∃ s, mergeAdjacent next [a, b] = .ok s ∧ Leg ext s p r := by
  obtain ⟨s, h1, h2, _⟩ := merge_legs (ext := ext) next (rs := [a, b]) (p := p) (q := r) (by simp)
    (by
      simp only [List.mem_cons, List.not_mem_nil, or_false]
      rintro x (rfl | rfl)
      exacts [⟨ha.valid, ha.good⟩, ⟨hb.valid, hb.good⟩])
    (by
      simp only [List.flatMap_cons, List.flatMap_nil, List.append_nil]
      exact connected_append ha.connected hb.connected ha.leads hb.leads)
    (by
      simp only [List.flatMap_cons, List.flatMap_nil, List.append_nil]
      exact leads_append ha.leads hb.leads)
  exact ⟨s, h1, h2⟩

theorem Leg.weaken {ext ext' : Ref P → Prop} {r : Route P} {p q : P} (h : Leg ext r p q) (he : ∀ x, ext x → ext' x) :
    Leg ext' r p q :=
  ⟨h.valid, by obtain ⟨n, hn⟩ := h.good; exact ⟨n, hn.weaken he⟩, h.connected, h.leads⟩

theorem trim_ends (G : Geo P R A) (turn : A → Bool) {ext : Ref P → Prop} {next : Nat} {s e : Ref P} {m : Route P}
    {p q r t : P} (hs : Leg ext (Route.ofRefs [s]) p q) (hm : Leg ext m q r) (he : Leg ext (Route.ofRefs [e]) r t)
    (hown : m.own = []) (hne : ∀ l ∈ m.lines, l ≠ []) (ns : s.addr < next) (nm : m.top ≤ next) (ne : e.addr < next) :
    ∃ x ext', trimEnds G turn next (Route.ofRefs [s]) m (Route.ofRefs [e]) = .ok x ∧ Leg ext' x p t ∧
      ((∀ l ∈ m.lines, 2 ≤ l.length ∧ l.IsChain (· ≠ ·)) → Leg ext x p t) := by
  have tops : (Route.ofRefs [s]).top ≤ next := by simp [Route.ofRefs, Route.top]; omega
  have tope : (Route.ofRefs [e]).top ≤ next := by simp [Route.ofRefs, Route.top]; omega
  have hfs : (Route.ofRefs [s]).lines.flatten = s.line := by simp [Route.ofRefs, Route.lines]
  have hfe : (Route.ofRefs [e]).lines.flatten = e.line := by simp [Route.ofRefs, Route.lines]
  have hls : ∀ l ∈ (Route.ofRefs [s]).lines, l ≠ [] ∨ s.line = [] := by
    simp [Route.ofRefs, Route.lines]; tauto
  have hle : ∀ l ∈ (Route.ofRefs [e]).lines, l ≠ [] ∨ e.line = [] := by
    simp [Route.ofRefs, Route.lines]; tauto
  have hbad : (Route.bad : Route P).invalid = true := rfl
  obtain ⟨_, gs⟩ := hs.good
  obtain ⟨_, gm⟩ := hm.good
  obtain ⟨_, ge⟩ := he.good
  unfold trimEnds
  by_cases h1 : s.line = [] ∨ m.lines.flatten = []
  · rw [trim_none G turn next (by rwa [hfs])]
    simp only [Outcome.bind_ok, hbad, if_true]
    by_cases h2 : m.lines.flatten = [] ∨ e.line = []
    · rw [trim_none G turn next (by rwa [hfe])]
      simp only [Outcome.bind_ok, hbad, if_true]
      obtain ⟨x, h3, h4, _⟩ := three_legs next hs hm he
      exact ⟨x, _, h3, h4, fun _ => h4⟩
    · push Not at h2
      obtain ⟨me, h3, h4, _⟩ := trim_legs G turn (next := next) hm he (front_alive gm (front_of_no_own hown))
        (no_own_alive ge rfl) hne (fun l hl => (hle l hl).resolve_right h2.2) nm tope h2.1 (by rw [hfe]; exact h2.2)
      rw [h3]
      simp only [Outcome.bind_ok, h4.valid, Bool.false_eq_true, if_false]
      obtain ⟨x, h5, h6⟩ := two_legs next hs h4
      exact ⟨x, _, h5, h6, fun _ => h6⟩
  · push Not at h1
    obtain ⟨sm, h3, h4, h5⟩ := trim_legs G turn (next := next) hs hm (front_alive gs (front_of_no_own rfl))
      (no_own_alive gm hown) (fun l hl => (hls l hl).resolve_right h1.1) hne tops nm (by rw [hfs]; exact h1.1) h1.2
    rw [h3]
    simp only [Outcome.bind_ok, h4.valid, Bool.false_eq_true, if_false]
    by_cases h2 : sm.lines.flatten = [] ∨ e.line = []
    · rw [trim_none G turn _ (by rwa [hfe])]
      simp only [Outcome.bind_ok, hbad, if_true]
      obtain ⟨x, h5, h6⟩ := two_legs next h4 he
      exact ⟨x, _, h5, h6, fun _ => h6⟩
    · push Not at h2
      obtain ⟨_, gsm⟩ := h4.good
      have hrun : ∀ E : Ref P → Prop, (∀ i k m, subRoute sm 0 i k = .ok m → ∀ x ∈ m.refs, x ∈ m.own ∨ E x) →
          (∀ y, ext y → E y) →
          ∃ x, trimMerge G turn (max next sm.top) sm (Route.ofRefs [e]) = .ok x ∧ Leg E x p t := by
        intro E hE hext
        obtain ⟨x, h6, h7, _⟩ := trim_legs G turn (next := max next sm.top) h4 he hE
          (fun i k m h y hy => (no_own_alive ge rfl i k m h y hy).imp_right (hext y)) h5
          (fun l hl => (hle l hl).resolve_right h2.2) (by omega) (by omega) h2.1 (by rw [hfe]; exact h2.2)
        exact ⟨x, h6, h7⟩
      obtain ⟨x, h6, h7⟩ := hrun _ (fun i k m h => subRoute_alive gsm h) (fun y hy => .inl hy)
      rw [h6]
      simp only [Outcome.bind_ok, h7.valid, Bool.false_eq_true, if_false]
      refine ⟨x, _, rfl, h7, fun hl => ?_⟩
      obtain ⟨x', h8, h9⟩ := hrun ext (front_alive gsm (trimmed_front G turn hown hl h3)) (fun y hy => hy)
      rw [h6] at h8
      rw [Outcome.ok.inj h8]
      exact h9

/-- Lines of the network or of candidates: alive during matching, at addresses in use. -/
def Known (net : Ref P → Prop) (next : Nat) (x : Ref P) : Prop := net x ∧ x.addr < next

/-- **C67, over the network.**  Let the part of the first edge behind the projection point lead from there to a node, the
path of the network from this node to another, and the part of the second edge before the projection point from this node
to that.  Then the route between the candidates is valid and connected, and leads from one projection point to the other,
with or without turns within edges.  Without, its points are those of the three parts (up to repetitions).  If lines of the
network have at least two points and no repeated ones, nothing the route refers to is freed.
Missing: with turns within edges the points are those of C66; candidates on the same edge are below. -/
theorem candidate_route_partial (G : Geo P R A) (interp : List P → R → P) (turn : A → Bool) (edgeLine : Nat → List P)
    (within : Bool) {net : Ref P → Prop} {next : Nat} {path : List (Ref P)} {c d : Cand P} {v w : P}
    (hpath : ∀ x ∈ path, Known net next x ∧ x.line ≠ []) (hconn : Connected (path.map Ref.line))
    (hlead : Leads (path.map Ref.line) v w) (hc : Known net next c.behind) (hd : Known net next d.before)
    (hcl : Leads [c.behind.line] c.proj v) (hdl : Leads [d.before.line] w d.proj) (hne : c.proj ≠ d.proj)
    (hov : overlap G edgeLine c d = none) :
    ∃ r pts, candidateRoute G interp turn edgeLine within next (Route.ofRefs path) c d = .ok r ∧ r.invalid = false ∧
      r.isConnected = true ∧ r.richLine = .ok pts ∧ pts.head? = some c.proj ∧ pts.getLast? = some d.proj ∧
      (within = false → squash pts = squash (c.behind.line ++ (path.map Ref.line).flatten ++ d.before.line)) ∧
      (within = false ∨ (∀ x ∈ path, 2 ≤ x.line.length ∧ x.line.IsChain (· ≠ ·)) → ∀ x ∈ r.refs, x ∈ r.own ∨ net x) := by
  have ls := ofRefs_leg (ext := net) hc.1 hcl
  have le := ofRefs_leg (ext := net) hd.1 hdl
  have hlines : (Route.ofRefs path).lines = path.map Ref.line := rfl
  have lm : Leg net (Route.ofRefs path) v w := by
    refine ⟨rfl, ⟨next, by simp [Route.ofRefs], by simp [Route.ofRefs], ?_, ?_⟩, hconn, hlead⟩
    · intro x hx; exact .inr (hpath x hx).1.1
    · intro x hx; exact (hpath x hx).1.2
  rw [candidateRoute, if_neg hne, hov]
  simp only
  rw [if_neg (by simp [Route.ofRefs])]
  cases within with
  | false =>
    obtain ⟨r, h1, h2, h3⟩ := three_legs next ls lm le
    have hrl := richLine_connected h2.connected
    obtain ⟨pts, p1, p2, p3⟩ := h2.points hne
    have hp : pts = joined (nonempty r.lines) := by rw [p1] at hrl; exact Outcome.ok.inj hrl
    refine ⟨r, pts, by simpa using h1, h2.valid, connected_reported h2.connected, p1, p2, p3, fun _ => ?_, fun _ => ?_⟩
    · rw [hp, h3 hne]
      simp [Route.ofRefs, Route.lines]
    · obtain ⟨n, hn⟩ := h2.good
      exact hn.alive
  | true =>
    have hnm : (Route.ofRefs path).top ≤ next := by
      have : ∀ xs : List (Ref P), (∀ x ∈ xs, x.addr < next) → xs.foldr (fun x n => max (x.addr + 1) n) 0 ≤ next := by
        intro xs
        induction xs with
        | nil => simp
        | cons y ys ih =>
          intro h
          rw [List.foldr_cons]
          have h1 := ih (fun x hx => h x (List.mem_cons_of_mem _ hx))
          have h2 := h y List.mem_cons_self
          omega
      exact this _ (fun x hx => (hpath x hx).1.2)
    obtain ⟨r, ext', h1, h2, h3⟩ := trim_ends G turn (next := next) ls lm le rfl
      (by rw [hlines]; intro l hl; obtain ⟨x, hx, rfl⟩ := List.mem_map.1 hl; exact (hpath x hx).2) hc.2 hnm hd.2
    obtain ⟨pts, p1, p2, p3⟩ := h2.points hne
    refine ⟨r, pts, by simpa using h1, h2.valid, connected_reported h2.connected, p1, p2, p3, fun h => by simp at h, fun h => ?_⟩
    rcases h with h | h
    · simp at h
    · obtain ⟨n, hn⟩ := (h3 (by
        rw [hlines]; intro l hl; obtain ⟨x, hx, rfl⟩ := List.mem_map.1 hl; exact h x hx)).good
      exact hn.alive

/-- **C67, on the same edge.**  If the second candidate is further along the same edge, the route is the part of the edge
between the projection points. -/
theorem candidate_route_same_edge_partial (G : Geo P R A) (interp : List P → R → P) (turn : A → Bool)
    (edgeLine : Nat → List P) (within : Bool) (next : Nat) (m : Route P) {c d : Cand P} {a b start whole : R}
    (hne : c.proj ≠ d.proj) (he : c.edge = d.edge) (h2 : 2 ≤ (edgeLine c.edge).length)
    (hchain : (edgeLine c.edge).IsChain (· ≠ ·)) (hs : (Substring.marks G (edgeLine c.edge)).Pairwise (fun x y => x.2 ≤ y.2))
    (ha : plainLength G c.before.line = some a) (hb : plainLength G d.before.line = some b)
    (hst : plainLength G c.behind.line = some start) (hw : plainLength G (edgeLine c.edge) = some whole)
    (h0 : G.zeroR < a) (hab : a < b) (hsum : whole ≤ G.addR start b)
    (hend : ∃ x ∈ Substring.marks G (edgeLine c.edge), a < x.2) :
    candidateRoute G interp turn edgeLine within next m c d =
      .ok (Route.ofOwn [⟨next, Substring.piece c.proj (Substring.interior G (edgeLine c.edge) a b) d.proj⟩]) := by
  have hov : overlap G edgeLine c d = some (a, b) := by
    rw [overlap, if_pos he, hst, hb, hw, ha]
    simp only
    rw [if_pos ⟨hsum, hab.le⟩]
  rw [candidateRoute, if_neg hne, hov]
  simp only
  rw [Substring.substring_partial G interp h2 hchain hs h0.le hab hend (some c.proj) (some d.proj)
    (fun h => hne (Option.some.inj h.2)) (fun h => h0.ne' h.1)]
  rfl

/-- **C67, without a route.**  Candidates at the same point need no route; if there is no path in the network (and the
candidates are not one behind the other on an edge), the route is invalid. -/
theorem candidate_route_none (G : Geo P R A) (interp : List P → R → P) (turn : A → Bool) (edgeLine : Nat → List P)
    (within : Bool) (next : Nat) (m : Route P) (c d : Cand P) :
    (c.proj = d.proj → candidateRoute G interp turn edgeLine within next m c d = .ok (Route.ofRefs [])) ∧
    (c.proj ≠ d.proj → overlap G edgeLine c d = none → m.invalid = true →
      candidateRoute G interp turn edgeLine within next m c d = .ok Route.bad) := by
  refine ⟨fun h => by rw [candidateRoute, if_pos h], fun h1 h2 h3 => ?_⟩
  rw [candidateRoute, if_neg h1, h2]
  simp only
  rw [if_pos h3]

/-- **C67, a path that does not begin where the edge ends.**  The route is invalid; no exception leaves. -/
theorem candidate_route_gap (G : Geo P R A) (interp : List P → R → P) (turn : A → Bool) (edgeLine : Nat → List P)
    {net : Ref P → Prop} (next : Nat) {x : Ref P} {path : List (Ref P)} {c d : Cand P} {p q : P}
    (hpath : ∀ y ∈ x :: path, net y) (hc : net c.behind) (hd : net d.before)
    (hcl : c.behind.line.getLast? = some p) (hxl : x.line.head? = some q) (hpq : p ≠ q)
    (hcs : ∃ s ∈ segs c.behind.line, s.1 ≠ s.2) (hxs : ∃ s ∈ segs x.line, s.1 ≠ s.2) (hne : c.proj ≠ d.proj)
    (hov : overlap G edgeLine c d = none) :
    candidateRoute G interp turn edgeLine false next (Route.ofRefs (x :: path)) c d = .ok Route.bad := by
  rw [candidateRoute, if_neg hne, hov]
  simp only
  rw [if_neg (by simp [Route.ofRefs]), if_neg (by simp)]
  have hgood : ∀ l : List (Ref P), (∀ y ∈ l, net y) → ∃ n, Good net n (Route.ofRefs l) := by
    intro l hl
    obtain ⟨n, hn⟩ : ∃ n, ∀ y ∈ l, y.addr < n := by
      clear hl
      induction l with
      | nil => exact ⟨0, by simp⟩
      | cons y l ih =>
        obtain ⟨n, hn⟩ := ih
        refine ⟨max n (y.addr + 1), ?_⟩
        intro z hz
        rcases List.mem_cons.1 hz with rfl | hz
        · exact lt_of_lt_of_le (Nat.lt_succ_self _) (Nat.le_max_right _ _)
        · exact lt_of_lt_of_le (hn z hz) (Nat.le_max_left _ _)
    exact ⟨n, by simp [Route.ofRefs], by simp [Route.ofRefs], fun y hy => .inr (hl y hy), hn⟩
  have hmov : ∀ (y : Ref P) (l : List (Ref P)), (∃ s ∈ segs y.line, s.1 ≠ s.2) → (Route.ofRefs (y :: l)).mergeable = true := by
    rintro y l ⟨s, hs, hs2⟩
    have h2 : 2 ≤ y.line.length := by
      by_contra hlt
      have : segs y.line = [] := by
        match hy : y.line with
        | [] => rfl
        | [_] => rfl
        | _ :: _ :: _ => rw [hy] at hlt; simp at hlt
      rw [this] at hs
      simp at hs
    have hany : (segs y.line).any (fun s => decide (s.1 ≠ s.2)) = true := List.any_eq_true.2 ⟨s, hs, by simpa using hs2⟩
    rw [Route.mergeable, if_neg (by simp [Route.ofRefs]), if_neg]
    · rw [Route.lines, Route.ofRefs, List.map_cons, List.any_cons, hany]
      rfl
    · rw [Route.lines, Route.ofRefs, List.map_cons, List.all_cons]
      simp only [Bool.and_eq_true, decide_eq_true_eq]
      omega
  refine mergeAdjacent_gap (ext := net) next ⟨_, List.mem_cons_self, rfl⟩ ?_ ?_
  · intro r hr
    rcases List.mem_cons.1 hr with rfl | hr
    · exact hgood [c.behind] (by simpa using hc)
    rcases List.mem_cons.1 hr with rfl | hr
    · exact hgood _ hpath
    · rw [List.mem_singleton.1 hr]
      exact hgood [d.before] (by simpa using hd)
  · rw [usable, List.filter_cons_of_pos (hmov _ _ hcs), List.filter_cons_of_pos (hmov _ _ hxs), List.map_cons, List.map_cons]
    refine .inr (.inl ?_)
    simp [gapBetween, Route.ofRefs, Route.lines, hcl, hxl, hpq]

example := candidate_route_gap roadGeo (fun _ _ => 0) (fun d => d == 180) (fun _ => [0, 10]) (net := fun x => x.addr < 20) 20
  (x := ⟨1, [11, 0]⟩) (path := [⟨2, [0, -20]⟩]) (c := ⟨0, ⟨8, [0, 3]⟩, ⟨0, [3, 10]⟩, 3⟩) (d := ⟨7, ⟨3, [-20, -30]⟩, ⟨9, []⟩, -30⟩)
  (p := 10) (q := 11) (by simp) (by simp) (by simp) rfl rfl (by decide) ⟨(3, 10), by decide, by decide⟩
  ⟨(11, 0), by decide, by decide⟩ (by decide) (by decide)

/-! ### Cases -/

def streetNet (x : Ref Int) : Prop := x ∈ [(⟨0, [3, 10]⟩ : Ref Int), ⟨1, [10, 0]⟩, ⟨2, [0, -20]⟩, ⟨3, [-20, -30]⟩]

/-- From 3 to the node at 10, back to 0 and on to -20, from there to -30: all hypotheses hold, also those on lines. -/
example : ∃ r, candidateRoute roadGeo (fun _ _ => 0) (fun d => d == 180) (fun _ => [0, 10]) true 20
      (Route.ofRefs [⟨1, [10, 0]⟩, ⟨2, [0, -20]⟩]) ⟨0, ⟨8, [0, 3]⟩, ⟨0, [3, 10]⟩, 3⟩ ⟨7, ⟨3, [-20, -30]⟩, ⟨9, []⟩, -30⟩ = .ok r ∧
    r.richLine = .ok [3, 0, -20, -30] := ⟨_, rfl, by decide⟩

example := candidate_route_partial roadGeo (fun _ _ => 0) (fun d => d == 180) (fun _ => [0, 10]) true (net := streetNet)
  (next := 20) (path := [⟨1, [10, 0]⟩, ⟨2, [0, -20]⟩]) (c := ⟨0, ⟨8, [0, 3]⟩, ⟨0, [3, 10]⟩, 3⟩)
  (d := ⟨7, ⟨3, [-20, -30]⟩, ⟨9, []⟩, -30⟩) (v := 10) (w := -20) (by simp [Known, streetNet])
  (by simp [Connected, nonempty, Meets]) (.inr (by decide)) (by simp [Known, streetNet]) (by simp [Known, streetNet])
  (.inr (by decide)) (.inr (by decide)) (by decide) rfl

/-- On the edge from 0 to 10 over 4 and 6, from 2 to 9. -/
example : candidateRoute roadGeo (fun _ _ => 0) (fun d => d == 180) (fun _ => [0, 4, 6, 10]) true 20 Route.bad
    ⟨0, ⟨1, [0, 2]⟩, ⟨2, [2, 4, 6, 10]⟩, 2⟩ ⟨0, ⟨3, [0, 4, 6, 9]⟩, ⟨4, [9, 10]⟩, 9⟩ = .ok (Route.ofOwn [⟨20, [2, 4, 6, 9]⟩]) := by
  decide

example := candidate_route_same_edge_partial roadGeo (fun _ _ => 0) (fun d => d == 180) (fun _ => [0, 4, 6, 10]) true 20
  Route.bad (c := ⟨0, ⟨1, [0, 2]⟩, ⟨2, [2, 4, 6, 10]⟩, 2⟩) (d := ⟨0, ⟨3, [0, 4, 6, 9]⟩, ⟨4, [9, 10]⟩, 9⟩) (a := 2) (b := 9)
  (start := 8) (whole := 10) (by decide) rfl (by decide) (by decide) (by decide) (by decide) (by decide) (by decide) (by decide)
  (by decide) (by decide) (by decide) (by decide)

/-- **C67, turns at nodes.**  Turning back at the node itself, that is without a path, is not trimmed although turns within
edges are allowed: from 3 over the node at 10 to 5. -/
theorem candidate_route_node_turn_fails : ∃ c d : Cand Int, ∃ r,
    candidateRoute roadGeo (fun _ _ => 0) (fun d => d == 180) (fun _ => [0, 10]) true 20 (Route.ofRefs []) c d = .ok r ∧
      c.behind.line = [3, 10] ∧ d.before.line = [10, 5] ∧ r.richLine = .ok [3, 10, 5] ∧
      Turns roadGeo (fun d => d == 180) [3] 10 [5] :=
  ⟨⟨0, ⟨1, [0, 3]⟩, ⟨2, [3, 10]⟩, 3⟩, ⟨1, ⟨3, [10, 5]⟩, ⟨4, [5, 0]⟩, 5⟩, _, rfl, rfl, rfl, by decide, 3, 5, rfl, rfl, by decide⟩

/-- **C67, freed lines.**  With a repeated point in a line of the network, the route refers to a line that belongs to an
intermediate result and is freed when `candidate_route` returns. -/
theorem candidate_route_freed_fails : ∃ (net : Ref Int → Prop) (path : List (Ref Int)) (c d : Cand Int) (r : Route Int),
    (∀ x ∈ path, net x ∧ 2 ≤ x.line.length) ∧ net c.before ∧ net c.behind ∧ net d.before ∧ net d.behind ∧
    Connected (path.map Ref.line) ∧ Leads (path.map Ref.line) 10 30 ∧ Leads [c.behind.line] c.proj 10 ∧
    Leads [d.before.line] 30 d.proj ∧
    candidateRoute roadGeo (fun _ _ => 0) (fun d => d == 180) (fun _ => [0, 10]) true 20 (Route.ofRefs path) c d = .ok r ∧
    ∃ x ∈ r.refs, x ∉ r.own ∧ ¬ net x := by
  refine ⟨fun x => x.addr < 20, [⟨5, [10, 10, 20]⟩, ⟨6, [20, 30]⟩], ⟨0, ⟨1, [0, 3]⟩, ⟨2, [3, 10]⟩, 3⟩,
    ⟨1, ⟨3, [30, 40]⟩, ⟨4, [40, 50]⟩, 40⟩, _, by simp, by simp, by simp, by simp, by simp, ?_, .inr (by decide), .inr (by decide),
    .inr (by decide), rfl, ?_⟩
  · simp [Connected, nonempty, Meets]
  · decide

/-- **C67, begin of an edge.**  From the begin of an edge to a point further along the same edge the route goes to the end of
the edge, over the network back to its begin, and over the edge again; if there is no way back, there is no route. -/
theorem candidate_route_edge_begin_fails : ∃ c d : Cand Int, c.edge = d.edge ∧ c.proj = 0 ∧ d.proj = 4 ∧
    c.behind.line = [0, 10] ∧ d.before.line = [0, 4] ∧
    (∃ r, candidateRoute roadGeo (fun _ _ => 0) (fun d => d == 180) (fun _ => [0, 10]) false 20
      (Route.ofRefs [⟨7, [10, 0]⟩]) c d = .ok r ∧ r.richLine = .ok [0, 10, 0, 4]) ∧
    candidateRoute roadGeo (fun _ _ => 0) (fun d => d == 180) (fun _ => [0, 10]) false 20 Route.bad c d = .ok Route.bad :=
  ⟨⟨0, ⟨1, []⟩, ⟨2, [0, 10]⟩, 0⟩, ⟨0, ⟨3, [0, 4]⟩, ⟨4, [4, 10]⟩, 4⟩, rfl, rfl, rfl, rfl, rfl, ⟨_, rfl, by decide⟩, by decide⟩

end MM.Route
