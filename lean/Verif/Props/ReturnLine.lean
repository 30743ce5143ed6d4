import Verif.Model.ReturnLine
import Verif.Props.TrimMerge
import Verif.Props.MatchRoute

/-! # Property theorems C117 (the part of two routes that is travelled forth and back) -/

set_option autoImplicit false
set_option linter.unusedSectionVars false

namespace MM.Route

open MM.Line

variable {P : Type} [DecidableEq P] {R A : Type}

/-- What the search finds, and where. -/
theorem return_found {a b : Route P} (hia : a.invalid = false) (hib : b.invalid = false)
    (hca : Connected a.lines) (hcb : Connected b.lines) (hane : a.lines.flatten ≠ []) {pa pb : List P}
    (hpa : a.richLine = .ok pa) (hpb : b.richLine = .ok pb) (hmeet : pa.getLast? = pb.head?) :
    ∃ w x ra rb i j k l la lb, squash pa = ra ++ x :: w.reverse ∧ squash pb = w ++ x :: rb ∧
      (∀ y, ra.getLast? = some y → rb.head? ≠ some y) ∧
      findReturn a b = .parts (i, j) (k, l) ∧ a.lines[i]? = some la ∧ j < la.length ∧ b.lines[k]? = some lb ∧ l < lb.length ∧
      squash (la.drop j ++ (a.lines.drop (i + 1)).flatten) = x :: w.reverse ∧
      squash ((b.lines.take k).flatten ++ lb.take (l + 1)) = w ++ [x] := by
  have epa : pa = joined (nonempty a.lines) := by
    have := richLine_connected hca; rw [hpa] at this; exact (Outcome.ok.inj this)
  have epb : pb = joined (nonempty b.lines) := by
    have := richLine_connected hcb; rw [hpb] at this; exact (Outcome.ok.inj this)
  have fa : squash a.lines.flatten = squash pa := by rw [epa, squash_flatten hca]
  have fb : squash b.lines.flatten = squash pb := by rw [epb, squash_flatten hcb]
  have hpta := positions_pts a.lines 0
  have hptb := positions_pts b.lines 0
  have hmeet' : a.lines.flatten.getLast? = b.lines.flatten.head? := by
    rw [← squash_getLast?, fa, squash_getLast?, hmeet, ← squash_head?, ← fb, squash_head?]
  obtain ⟨c, hcl⟩ : ∃ c, a.lines.flatten.getLast? = some c := ⟨_, List.getLast?_eq_getLast_of_ne_nil hane⟩
  have hbh : b.lines.flatten.head? = some c := by rw [← hmeet', hcl]
  obtain ⟨a0, as, hA⟩ : ∃ a0 as, (positions 0 a.lines).reverse = a0 :: as := by
    cases h : (positions 0 a.lines).reverse with
    | nil =>
      rw [List.reverse_eq_nil_iff] at h
      rw [h] at hpta
      exact absurd hpta.symm hane
    | cons u v => exact ⟨u, v, rfl⟩
  obtain ⟨b0, bs, hB⟩ : ∃ b0 bs, positions 0 b.lines = b0 :: bs := by
    cases h : positions 0 b.lines with
    | nil => rw [h] at hptb; rw [← hptb] at hbh; simp [pts] at hbh
    | cons u v => exact ⟨u, v, rfl⟩
  have ha0 : a0.2 = c := by
    have h1 : (pts (positions 0 a.lines)).getLast? = some c := by rw [hpta, hcl]
    rw [pts, List.getLast?_map, ← List.head?_reverse, hA] at h1
    simpa using h1
  have hb0 : b0.2 = c := by
    have h1 : (pts (positions 0 b.lines)).head? = some c := by rw [hptb, hbh]
    rw [pts, hB] at h1
    simpa using h1
  have hlenA : as.length < (positions 0 a.lines).length := by
    have := congrArg List.length hA
    rw [List.length_reverse] at this
    rw [this]; simp
  obtain ⟨as1, as2, bs1, bs2, ps, pe, x, hwalk, hsa, hsb, hsq, hp1, hp2, hp3⟩ :=
    walk_spec (positions 0 a.lines).length as bs a0 b0 hlenA (ha0.trans hb0.symm)
  -- the search
  have hfind : findReturn a b = .parts ps pe := by
    unfold findReturn
    have h1 : a.refs.isEmpty = false := by
      cases h : a.refs with
      | nil => simp [Route.lines, h] at hane
      | cons u v => rfl
    have h2 : b.refs.isEmpty = false := by
      cases h : b.refs with
      | nil => simp [Route.lines, h] at hbh
      | cons u v => rfl
    have h3 : a.attachesTo b = true := by
      unfold Route.attachesTo
      rw [hia, hib]
      simp only [Bool.or_self, Bool.false_eq_true, if_false]
      cases hu : (a.refs.getLast?).bind (fun r => r.line.getLast?) with
      | none => rfl
      | some p =>
        cases hv : (b.refs.head?).bind (fun r => r.line.head?) with
        | none => rfl
        | some q =>
          simp only [decide_eq_true_eq]
          obtain ⟨r1, hr1, hr1p⟩ := Option.bind_eq_some_iff.1 hu
          obtain ⟨r2, hr2, hr2q⟩ := Option.bind_eq_some_iff.1 hv
          obtain ⟨us, hus⟩ := List.getLast?_eq_some_iff.1 hr1
          obtain ⟨vs, hvs⟩ : ∃ vs, b.refs = r2 :: vs := ⟨_, List.eq_cons_of_mem_head? hr2⟩
          have e1 : a.lines.flatten.getLast? = some p := by
            rw [Route.lines, hus, List.map_append, List.flatten_append, List.getLast?_append]
            simp [hr1p]
          have e2 : b.lines.flatten.head? = some q := by
            rw [Route.lines, hvs, List.map_cons, List.flatten_cons, List.head?_append, hr2q]
            rfl
          rw [hmeet', e2] at e1
          exact (Option.some.inj e1).symm
    have h4 : (positions 0 a.lines).isEmpty = false := by
      cases h : positions 0 a.lines with
      | nil => rw [h] at hA; simp at hA
      | cons u v => rfl
    have h5 : (positions 0 b.lines).isEmpty = false := by rw [hB]; rfl
    rw [h1, h2, h3, h4, h5]
    simp only [Bool.not_true, Bool.or_self, Bool.false_eq_true, if_false]
    rw [hA, hB, hwalk]
  -- the positions
  have hposA : positions 0 a.lines = as2.reverse ++ (ps, x) :: as1.reverse := by
    have := congrArg List.reverse hA
    rw [List.reverse_reverse, hsa] at this
    rw [this]; simp
  obtain ⟨i, j, la, hq, hla, hlaj, hpre, hpost⟩ := positions_spec a.lines 0 _ _ _ _ hposA
  obtain ⟨k, l, lb, hq', hlb, hlbl, hpre', hpost'⟩ := positions_spec b.lines 0 _ _ _ _ (hB.trans hsb)
  have hj : j < la.length := by
    by_contra h
    rw [List.getElem?_eq_none (by omega)] at hlaj
    simp at hlaj
  have hlj : l < lb.length := by
    by_contra h
    rw [List.getElem?_eq_none (by omega)] at hlbl
    simp at hlbl
  have htake : la.take (j + 1) = la.take j ++ [x] := by rw [List.take_add_one, hlaj]; rfl
  have hdrop : lb.drop l = x :: lb.drop (l + 1) := by
    have : x = lb[l] := by
      rw [List.getElem?_eq_getElem hlj] at hlbl
      exact (Option.some.inj hlbl).symm
    rw [this]
    exact List.drop_eq_getElem_cons hlj
  have hbfl : b.lines.flatten = pts bs1 ++ x :: pts bs2 := by
    rw [← hptb, hB, hsb]; simp [pts]
  have hafl : a.lines.flatten = pts as2.reverse ++ x :: (pts as1).reverse := by
    rw [← hpta, hposA]; simp [pts]
  -- the retraced way
  obtain ⟨w, hw⟩ : ∃ w, squash (pts as1 ++ [x]) = w ++ [x] := by
    have := squash_getLast? (pts as1 ++ [x])
    rw [List.getLast?_append] at this
    simp only [List.getLast?_singleton, Option.some_or] at this
    exact List.getLast?_eq_some_iff.1 this
  obtain ⟨ra, hra⟩ : ∃ ra, squash (pts as2.reverse ++ [x]) = ra ++ [x] := by
    have := squash_getLast? (pts as2.reverse ++ [x])
    rw [List.getLast?_append] at this
    simp only [List.getLast?_singleton, Option.some_or] at this
    exact List.getLast?_eq_some_iff.1 this
  obtain ⟨rb, hrb⟩ : ∃ rb, squash (x :: pts bs2) = x :: rb := ⟨_, List.eq_cons_of_mem_head? (squash_head? (x :: pts bs2))⟩
  have hwayA : squash pa = ra ++ x :: w.reverse := by
    rw [← fa, hafl, squash_split, hra]
    have : squash (x :: (pts as1).reverse) = x :: w.reverse := by
      rw [show x :: (pts as1).reverse = (pts as1 ++ [x]).reverse by simp, squash_reverse, hw]
      simp
    rw [this]; simp
  have hwayB : squash pb = w ++ x :: rb := by
    rw [← fb, hbfl, squash_split, ← hsq, hw, hrb]; simp
  have hraLast : ra.getLast? = as2.head?.map Prod.snd := by
    cases as2 with
    | nil =>
      have : ra = [] := by
        have h1 : squash [x] = ra ++ [x] := by simpa [pts] using hra
        have := congrArg List.length h1
        simpa [squash] using this
      rw [this]; rfl
    | cons y as2 =>
      have hyx : y.2 ≠ x := hp1 y rfl
      have h1 : pts (y :: as2).reverse ++ [x] = pts as2.reverse ++ y.2 :: [x] := by simp [pts]
      rw [h1, squash_split, squash_cons2, if_neg hyx] at hra
      have h2 : squash (pts as2.reverse ++ [y.2]) = ra := by
        have h3 : (y.2 :: squash [x]).tail = [x] := rfl
        rw [h3] at hra
        exact List.append_cancel_right hra
      rw [← h2, squash_getLast?, List.getLast?_append]
      rfl
  have hrbHead : as2 ≠ [] → squash (pts bs2) = rb := by
    intro h
    have := squash_ne x (pts bs2) (by
      intro y hy
      rw [pts, List.head?_map] at hy
      obtain ⟨z, hz, rfl⟩ := Option.map_eq_some_iff.1 hy
      exact hp2 h z hz)
    rw [hrb] at this
    injection this with _ h2
    exact h2.symm
  have hpart : ∀ y, ra.getLast? = some y → rb.head? ≠ some y := by
    intro y hy hz
    rw [hraLast] at hy
    obtain ⟨y', hy', rfl⟩ := Option.map_eq_some_iff.1 hy
    have hne : as2 ≠ [] := by rintro rfl; simp at hy'
    rw [← hrbHead hne, squash_head?, pts, List.head?_map] at hz
    obtain ⟨z', hz', hzy⟩ := Option.map_eq_some_iff.1 hz
    exact hp3 y' z' hy' hz' hzy.symm
  have hdropA : la.drop j = x :: la.drop (j + 1) := by
    have : x = la[j] := by
      rw [List.getElem?_eq_getElem hj] at hlaj
      exact (Option.some.inj hlaj).symm
    rw [this]
    exact List.drop_eq_getElem_cons hj
  refine ⟨w, x, ra, rb, i, j, k, l, la, lb, hwayA, hwayB, hpart, ?_, hla, hj, hlb, hlj, ?_, ?_⟩
  · rw [hfind, hq, hq']; simp
  · rw [hdropA, List.cons_append, ← hpost, show x :: pts as1.reverse = (pts as1 ++ [x]).reverse by simp [pts],
      squash_reverse, hw]
    simp
  · have : lb.take (l + 1) = lb.take l ++ [x] := by rw [List.take_add_one, hlbl]; rfl
    rw [this, ← List.append_assoc, ← hpre', ← hsq, hw]

theorem positionsIn_last (i : Nat) (l : List P) : ∀ j : Nat, l ≠ [] →
    ((positionsIn i j l).getLast?).map Prod.fst = some (i, j + l.length - 1) := by
  induction l with
  | nil => intro j h; exact absurd rfl h
  | cons p l ih =>
    intro j _
    cases l with
    | nil => simp [positionsIn]
    | cons q l =>
      have := ih (j + 1) (by simp)
      rw [positionsIn, positionsIn, List.getLast?_cons_cons, ← positionsIn, this]
      simp only [List.length_cons, Option.some.injEq, Prod.mk.injEq, true_and]
      omega

theorem positions_append (ls ms : List (List P)) : ∀ i : Nat,
    positions i (ls ++ ms) = positions i ls ++ positions (i + ls.length) ms := by
  induction ls with
  | nil => intro i; simp [positions]
  | cons l ls ih => intro i; simp [positions, ih, Nat.add_assoc, Nat.add_comm 1]

theorem selfEnd_last {a : Route P} {last : List P} (hlast : a.lines.getLast? = some last) (hl : last ≠ []) :
    selfEnd a = some (a.refs.length - 1, last.length - 1) ∧ 0 < a.refs.length ∧ 0 < last.length := by
  obtain ⟨u, hu⟩ := List.getLast?_eq_some_iff.1 hlast
  have hlen : a.refs.length = u.length + 1 := by
    have : a.lines.length = a.refs.length := by simp [Route.lines]
    rw [← this, hu]; simp
  have hne : positionsIn (0 + u.length) 0 last ≠ [] := by
    obtain ⟨q, l, rfl⟩ := List.exists_cons_of_ne_nil hl
    simp [positionsIn]
  refine ⟨?_, by omega, List.length_pos_iff.2 hl⟩
  unfold selfEnd
  rw [hu, positions_append, positions, positions, List.append_nil, List.getLast?_append]
  have h1 := positionsIn_last (0 + u.length) last 0 hl
  cases hg : (positionsIn (0 + u.length) 0 last).getLast? with
  | none => rw [hg] at h1; simp at h1
  | some z =>
    rw [hg] at h1
    simp only [Option.some_or]
    rw [h1, hlen]
    simp

theorem moving_segs (l : List P) : (segs l).filter (fun s => decide (s.1 ≠ s.2)) = segs (squash l) := by
  induction l with
  | nil => rfl
  | cons p l ih =>
    cases l with
    | nil => rfl
    | cons q l =>
      have hs : segs (p :: q :: l) = (p, q) :: segs (q :: l) := rfl
      rw [hs, squash_cons2, List.filter_cons, ih]
      by_cases h : p = q
      · simp [h]
      · have hq : ∃ r, squash (q :: l) = q :: r := ⟨_, List.eq_cons_of_mem_head? (squash_head? (q :: l))⟩
        obtain ⟨r, hr⟩ := hq
        simp only [h, ne_eq, not_false_eq_true, decide_true, if_true, if_false, hr]
        rfl

/-- The length of a line does not depend on repeated points. -/
theorem length_squash (G : Geo P R A) (l m : List P) (h : squash l = squash m) : plainLength G l = plainLength G m := by
  unfold plainLength
  rw [moving_segs, moving_segs, h]

theorem segs_append_pair (l : List P) (p q : P) : segs (l ++ [p, q]) = segs (l ++ [p]) ++ [(p, q)] := by
  induction l with
  | nil => rfl
  | cons a l ih =>
    cases l with
    | nil => rfl
    | cons b l =>
      have h1 : segs (a :: b :: l ++ [p, q]) = (a, b) :: segs (b :: l ++ [p, q]) := rfl
      have h2 : segs (a :: b :: l ++ [p]) = (a, b) :: segs (b :: l ++ [p]) := rfl
      rw [h1, h2, ih]; rfl

theorem segs_back (l : List P) : segs l.reverse = (segs l).reverse.map Prod.swap := by
  induction l with
  | nil => rfl
  | cons p l ih =>
    cases l with
    | nil => rfl
    | cons q l =>
      have h1 : segs (p :: q :: l) = (p, q) :: segs (q :: l) := rfl
      rw [h1, List.reverse_cons, List.reverse_cons, List.append_assoc]
      have h2 : ([q] ++ [p] : List P) = [q, p] := rfl
      rw [h2, segs_append_pair, ← List.reverse_cons, ih, List.reverse_cons, List.map_append]
      rfl

/-- The way back is as long as the way forth. -/
theorem length_back [AddCommMonoid R] [AddCommMonoid A] {G : Geo P R A} (hG : Exact G)
    (hsym : ∀ p q, G.len p q = G.len q p) (l : List P) : plainLength G l.reverse = plainLength G l := by
  have hf : ∀ (ss : List (P × P)) (v : R), ss.foldl (fun acc s => G.addR acc (G.len s.1 s.2)) v =
      v + (ss.map fun s => G.len s.1 s.2).sum := by
    intro ss
    induction ss with
    | nil => intro v; simp
    | cons d ds ih => intro v; rw [List.foldl_cons, ih, hG.addR, List.map_cons, List.sum_cons]; exact add_assoc _ _ _
  unfold plainLength
  rw [moving_segs, moving_segs, squash_reverse, segs_back, hf, hf]
  have h1 : (((segs (squash l)).reverse.map Prod.swap).map fun s => G.len s.1 s.2).sum =
      ((segs (squash l)).map fun s => G.len s.1 s.2).sum := by
    rw [List.map_map, List.map_reverse, List.sum_reverse]
    congr 1
    exact List.map_congr_left (fun s _ => hsym _ _)
  rw [h1]
  simp

/-! ## C117 -/

/-- **C117, as far as it holds.**  Two valid connected routes, the second beginning where the first ends.  With `w` the longest
way, from its end, of the first route that the second retraces up to `x`, the line found is the part of the first route from
`x` to its end, up to repetitions of points; it has no points if nothing is retraced.
Missing: a first route ending with an empty line, see `no_meeting_fails`. -/
theorem return_line_partial {ext : Ref P → Prop} {n next : Nat} {a b : Route P} (hga : Good ext n a) (hn : n ≤ next)
    (hia : a.invalid = false) (hib : b.invalid = false) (hca : Connected a.lines) (hcb : Connected b.lines)
    {last : List P} (hlast : a.lines.getLast? = some last) (hl : last ≠ []) {pa pb : List P}
    (hpa : a.richLine = .ok pa) (hpb : b.richLine = .ok pb) (hmeet : pa.getLast? = pb.head?) :
    ∃ line w x ra rb, squash pa = ra ++ x :: w.reverse ∧ squash pb = w ++ x :: rb ∧
      (∀ y, ra.getLast? = some y → rb.head? ≠ some y) ∧
      extractReturn true next a b = .ok line ∧ squash line = if w = [] then [] else x :: w.reverse := by
  have hane : a.lines.flatten ≠ [] := by
    obtain ⟨u, hu⟩ := List.getLast?_eq_some_iff.1 hlast
    rw [hu]; simp [hl]
  obtain ⟨w, x, ra, rb, i, j, k, l, la, lb, h1, h2, h3, h4, h5, h6, -, -, h9, -⟩ :=
    return_found hia hib hca hcb hane hpa hpb hmeet
  obtain ⟨e1, e2, e3⟩ := selfEnd_last hlast hl
  obtain ⟨s, m, g1, -, -, g4, -, g6, -⟩ := suffix_part (E := fun y => ext y ∨ y ∈ a.own) (hga.mono hn) hca
    (fun _ _ _ h x hx => subRoute_alive hga h x hx) hlast hl h5 h6
  refine ⟨joined (nonempty s.lines), w, x, ra, rb, h1, h2, h3, ?_, ?_⟩
  · unfold extractReturn
    rw [h4]
    simp only [if_true, returnOfSelf, e1]
    rw [show a.refs.length - 1 + 1 = a.refs.length by omega, show last.length - 1 + 1 = last.length by omega, g1]
    simp only [Outcome.bind_ok]
    exact richLine_connected g4
  · rw [g6, h9]
    unfold moving
    simp only [List.tail_cons, List.reverse_eq_nil_iff]

/-- **C117.**  The length charged for two routes is the length of the longest way that is travelled forth by the first and back
by the second: the ways to `x` and from `x` are the same points in reverse, and together as long as what is charged.  Nothing
is charged if nothing is retraced. -/
theorem zigzag_charged [AddCommMonoid R] [AddCommMonoid A] {G : Geo P R A} (hG : Exact G)
    (hsym : ∀ p q, G.len p q = G.len q p) {ext : Ref P → Prop} {n next : Nat} {a b : Route P} (hga : Good ext n a)
    (hn : n ≤ next) (hia : a.invalid = false) (hib : b.invalid = false) (hca : Connected a.lines) (hcb : Connected b.lines)
    {last : List P} (hlast : a.lines.getLast? = some last) (hl : last ≠ []) {pa pb : List P}
    (hpa : a.richLine = .ok pa) (hpb : b.richLine = .ok pb) (hmeet : pa.getLast? = pb.head?) :
    ∃ forth back ra rb x, squash pa = ra ++ forth ∧ squash pb = back ++ rb ∧ forth.head? = some x ∧
      back = forth.reverse ∧ (∀ y, ra.getLast? = some y → rb.head? ≠ some y) ∧
      ((forth.tail = [] ∧ zigzag G (fun v => v + v) next a b = .ok none) ∨
        ∃ u v, plainLength G forth = some u ∧ plainLength G back = some v ∧
          zigzag G (fun v => v + v) next a b = .ok (some (u + v))) := by
  obtain ⟨line, w, x, ra, rb, h1, h2, h3, h4, h5⟩ := return_line_partial hga hn hia hib hca hcb hlast hl hpa hpb hmeet
  refine ⟨x :: w.reverse, w ++ [x], ra, rb, x, h1, by rw [h2]; simp, rfl, by simp, h3, ?_⟩
  by_cases hw : w = []
  · left
    subst hw
    refine ⟨rfl, ?_⟩
    simp only [if_true] at h5
    have h6 : plainLength G line = plainLength G [] := length_squash G line [] h5
    rw [zigzag, h4, Outcome.map_ok, h6]
    rfl
  · right
    rw [if_neg hw] at h5
    -- the retraced part has no repeated points
    have hsq : squash (x :: w.reverse) = x :: w.reverse := by rw [← h5, MatchRoute.squash_idem]
    have h6 : plainLength G line = plainLength G (x :: w.reverse) := length_squash G _ _ (by rw [h5, hsq])
    have h7 : plainLength G (w ++ [x]) = plainLength G (x :: w.reverse) := by
      rw [← length_back hG hsym (x :: w.reverse)]; simp
    obtain ⟨u, hu⟩ : ∃ u, plainLength G (x :: w.reverse) = some u := by
      unfold plainLength
      rw [moving_segs, hsq]
      obtain ⟨q, r, hr⟩ := List.exists_cons_of_ne_nil (l := w.reverse) (by simpa using hw)
      rw [hr]
      exact ⟨_, rfl⟩
    exact ⟨u, u, hu, by rw [h7, hu], by simp [zigzag, h4, h6, hu]⟩

example : extractReturn true 20 roadA roadB = .ok [4, 7] ∧ extractReturn false 20 roadA roadB = .ok [7, 4] ∧
    zigzag roadGeo (fun v => v + v) 20 roadA roadB = .ok (some 6) := by decide

example : Good roadExt 20 roadA ∧ Connected roadA.lines ∧ Connected roadB.lines ∧ roadA.lines.getLast? = some [4, 7] ∧
    roadA.richLine = .ok [-2, 0, 4, 7] ∧ roadB.richLine = .ok [7, 4, 9] ∧ Exact roadGeo ∧
    ∀ p q, roadGeo.len p q = roadGeo.len q p := by
  refine ⟨⟨by decide, by decide, ?_, by decide⟩, ?_, ?_, by decide, by decide, by decide, ⟨rfl, rfl, rfl, rfl⟩, ?_⟩
  · simp [roadA, roadExt]
  · simp [Connected, nonempty, roadA, Route.lines, Meets]
  · simp [Connected, nonempty, roadB, Route.ofRefs, Route.lines, Meets]
  · intro p q
    simp only [roadGeo]
    split_ifs <;> omega

/-- The whole first route is retraced, with repeated points and within one line; nothing is retraced. -/
example : extractReturn true 20 (Route.ofRefs [⟨0, [0, 4]⟩, ⟨1, [4, 7]⟩]) (Route.ofRefs [⟨4, [7, 4, 4, 0]⟩, ⟨5, [0, -3]⟩]) =
      .ok [0, 4, 7] ∧
    extractReturn true 20 (Route.ofRefs [⟨0, [0, 4, 7, 9]⟩]) (Route.ofRefs [⟨1, [9, 7, 5]⟩]) = .ok [7, 9] ∧
    extractReturn true 20 (Route.ofRefs [⟨0, [0, 4]⟩]) (Route.ofRefs [⟨1, [4, 7]⟩]) = .ok [] := by decide

/-- **C117.**  Nothing is found if a route is invalid or has no lines, or if the second does not begin where the first ends. -/
theorem nothing_found (fromSelf : Bool) (next : Nat) (a b : Route P)
    (h : a.invalid = true ∨ b.invalid = true ∨ a.lines = [] ∨ b.lines = [] ∨
      ∃ la lb p q, a.lines.getLast? = some la ∧ b.lines.head? = some lb ∧ la.getLast? = some p ∧ lb.head? = some q ∧ p ≠ q) :
    extractReturn fromSelf next a b = .ok [] := by
  have hfind : findReturn a b = .nothing := by
    unfold findReturn
    rw [if_pos]
    rcases h with h | h | h | h | ⟨la, lb, p, q, h1, h2, h3, h4, h5⟩
    · simp [Route.attachesTo, h]
    · simp [Route.attachesTo, h]
    · have : a.refs = [] := by simpa [Route.lines] using h
      simp [this]
    · have : b.refs = [] := by simpa [Route.lines] using h
      simp [this]
    · rw [Route.lines, List.getLast?_map] at h1
      rw [Route.lines, List.head?_map] at h2
      obtain ⟨r1, hr1, rfl⟩ := Option.map_eq_some_iff.1 h1
      obtain ⟨r2, hr2, rfl⟩ := Option.map_eq_some_iff.1 h2
      have : a.attachesTo b = false := by
        unfold Route.attachesTo
        rw [hr1, hr2]
        simp [h3, h4, h5]
      simp [this]
  rw [extractReturn, hfind]

example : extractReturn true 20 roadA (Route.ofRefs [⟨3, [4, 9]⟩]) = .ok [] :=
  nothing_found _ _ _ _ (.inr (.inr (.inr (.inr ⟨[4, 7], [4, 9], 7, 4, by decide, by decide, rfl, rfl, by decide⟩))))

/-- **C117, empty lines.**  A route ending with an empty line counts as attached to every route: if the points do not meet,
the positions stay unset and the call throws instead of finding nothing. -/
theorem no_meeting_fails : ∃ a b : Route Int, Connected a.lines ∧ Connected b.lines ∧ a.richLine = .ok [0, 4] ∧
    b.richLine = .ok [7, 9] ∧ a.attachesTo b = true ∧ extractReturn true 20 a b = .throws := by
  refine ⟨Route.ofRefs [⟨1, [0, 4]⟩, ⟨0, []⟩], Route.ofRefs [⟨2, [7, 9]⟩], ?_, ?_, by decide, by decide, by decide, by decide⟩ <;>
  simp [Connected, nonempty, Route.ofRefs, Route.lines]

end MM.Route
