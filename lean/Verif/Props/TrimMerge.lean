import Verif.Model.TrimMerge
import Verif.Props.RouteValues

/-!
# C66: trimming the part that is travelled forth and back
-/

set_option autoImplicit false
set_option linter.unusedSectionVars false

namespace MM.Route

open MM.Line

variable {P : Type} [DecidableEq P] {R A : Type}

/-! ### The walk -/

/-- The points of a list of positions. -/
abbrev pts (as : List (Pos × P)) : List P := as.map Prod.snd

theorem skipSame_spec (p : P) (as : List (Pos × P)) : ∀ cur : Pos, ∃ n : Nat, ∃ as1 : List (Pos × P),
    (cur, p) :: as = as1 ++ ((skipSame p cur as).1, p) :: (skipSame p cur as).2 ∧
    pts as1 = List.replicate n p ∧ (skipSame p cur as).2.length ≤ as.length ∧
    (∀ x, (skipSame p cur as).2.head? = some x → x.2 ≠ p) := by
  induction as with
  | nil => intro cur; exact ⟨0, [], by simp [skipSame]⟩
  | cons a as ih =>
    intro cur
    rw [skipSame]
    split_ifs with h
    · obtain ⟨n, as1, h1, h2, h3, h4⟩ := ih a.1
      refine ⟨n + 1, (cur, p) :: as1, ?_, ?_, ?_, h4⟩
      · rw [List.cons_append, ← h1, ← h]
      · simp [h2, List.replicate_succ]
      · simp only [List.length_cons]; omega
    · exact ⟨0, [], rfl, rfl, by simp, by simpa using h⟩

theorem squash_idem_cons (p : P) (n : Nat) (ys : List P) :
    squash (List.replicate n p ++ p :: ys) = squash (p :: ys) := by
  induction n with
  | zero => rfl
  | succ n ih =>
    rw [List.replicate_succ, List.cons_append]
    cases n with
    | zero => simpa using squash_dup [] p ys
    | succ n =>
      rw [List.replicate_succ, List.cons_append] at ih ⊢
      rw [squash_cons2, if_pos rfl]
      exact ih

theorem squash_ne (p : P) (ys : List P) (h : ∀ y, ys.head? = some y → y ≠ p) : squash (p :: ys) = p :: squash ys := by
  cases ys with
  | nil => rfl
  | cons y ys => rw [squash_cons2, if_neg (fun hh => h y rfl hh.symm)]

/-- The walk finds where two ways that begin at the same point part, up to repetitions of points. -/
theorem walk_spec (fuel : Nat) : ∀ (as bs : List (Pos × P)) (a b : Pos × P), as.length < fuel → a.2 = b.2 →
    ∃ (as1 as2 bs1 bs2 : List (Pos × P)) (s e : Pos) (x : P), walk fuel (a :: as) (b :: bs) = some (s, e) ∧
      a :: as = as1 ++ (s, x) :: as2 ∧ b :: bs = bs1 ++ (e, x) :: bs2 ∧
      squash (pts as1 ++ [x]) = squash (pts bs1 ++ [x]) ∧
      (∀ y, as2.head? = some y → y.2 ≠ x) ∧ (as2 ≠ [] → ∀ z, bs2.head? = some z → z.2 ≠ x) ∧
      (∀ y z, as2.head? = some y → bs2.head? = some z → y.2 ≠ z.2) := by
  induction fuel with
  | zero => intro as bs a b h; omega
  | succ fuel ih =>
    intro as bs a b hlen hab
    obtain ⟨ap, p⟩ := a
    obtain ⟨bp, q⟩ := b
    simp only at hab
    subst hab
    obtain ⟨n, as1, ha1, ha2, ha3, ha4⟩ := skipSame_spec p as ap
    obtain ⟨m, bs1, hb1, hb2, hb3, hb4⟩ := skipSame_spec p bs bp
    rw [walk, if_pos rfl]
    simp only
    generalize hA : skipSame p ap as = sa at *
    generalize hB : skipSame p bp bs = sb at *
    obtain ⟨s, as2⟩ := sa
    obtain ⟨e, bs2⟩ := sb
    simp only at *
    have hrep : ∀ k : Nat, squash (List.replicate k p ++ [p]) = [p] := fun k => squash_idem_cons p k []
    split_ifs with h1 h2
    · have : as2 = [] := by simpa using h1
      subst this
      exact ⟨as1, [], [], bs, s, bp, p, rfl, ha1, rfl, by rw [ha2, hrep]; rfl, by simp, by simp, by simp⟩
    · have : bs2 = [] := by simpa using h2
      subst this
      exact ⟨as1, as2, bs1, [], s, e, p, rfl, ha1, hb1, by rw [ha2, hb2, hrep, hrep], ha4, by simp, by simp⟩
    · cases as2 with
      | nil => simp at h1
      | cons a' as2 =>
        cases bs2 with
        | nil => simp at h2
        | cons b' bs2 =>
          by_cases hab : a'.2 = b'.2
          · simp only [List.length_cons] at ha3
            obtain ⟨as1', as2', bs1', bs2', s', e', x, g1, g2, g3, g4, g5, g6, g7⟩ := ih as2 bs2 a' b' (by omega) hab
            refine ⟨as1 ++ (s, p) :: as1', as2', bs1 ++ (e, p) :: bs1', bs2', s', e', x, by rw [g1]; rfl, ?_, ?_, ?_, g5, g6, g7⟩
            · rw [ha1, g2]; simp
            · rw [hb1, g3]; simp
            · have key : ∀ (k : Nat) (u v : List (Pos × P)) (y : Pos × P), pts u = List.replicate k p →
                  (∀ y', (pts v ++ [x]).head? = some y' → y' ≠ p) →
                  squash (pts (u ++ (y.1, p) :: v) ++ [x]) = p :: squash (pts v ++ [x]) := by
                intro k u v y hu hv
                simp only [pts, List.map_append, List.map_cons] at hu hv ⊢
                rw [hu, List.append_assoc, List.cons_append, squash_idem_cons, squash_ne _ _ hv]
              have hheadA : ∀ y', (pts as1' ++ [x]).head? = some y' → y' ≠ p := by
                have hh := congrArg (fun l => (pts l).head?) g2
                intro y' hy'
                have : (pts (as1' ++ (s', x) :: as2')).head? = some y' := by
                  cases as1' with
                  | nil => simpa [pts] using hy'
                  | cons c cs => simpa [pts] using hy'
                simp only [this] at hh
                have := ha4 a' rfl
                simp [pts] at hh
                rwa [← hh]
              have hheadB : ∀ y', (pts bs1' ++ [x]).head? = some y' → y' ≠ p := by
                have hh := congrArg (fun l => (pts l).head?) g3
                intro y' hy'
                have : (pts (bs1' ++ (e', x) :: bs2')).head? = some y' := by
                  cases bs1' with
                  | nil => simpa [pts] using hy'
                  | cons c cs => simpa [pts] using hy'
                simp only [this] at hh
                have := hb4 b' rfl
                simp [pts] at hh
                rwa [← hh]
              rw [key n as1 as1' (s, p) ha2 hheadA, key m bs1 bs1' (e, p) hb2 hheadB, g4]
          · have hw : walk fuel (a' :: as2) (b' :: bs2) = none := by
              cases fuel with
              | zero => rfl
              | succ f => rw [walk, if_neg hab]
            refine ⟨as1, a' :: as2, bs1, b' :: bs2, s, e, p, by rw [hw]; rfl, ha1, hb1, by rw [ha2, hb2, hrep, hrep], ha4,
              fun _ => hb4, ?_⟩
            simpa using hab

/-! ### Positions -/

theorem positionsIn_spec (i : Nat) (l : List P) : ∀ (j : Nat) (pre post : List (Pos × P)) (q : Pos) (x : P),
    positionsIn i j l = pre ++ (q, x) :: post →
    ∃ n, q = (i, j + n) ∧ l[n]? = some x ∧ pts pre = l.take n ∧ pts post = l.drop (n + 1) := by
  have hp : ∀ (l : List P) (j : Nat), pts (positionsIn i j l) = l := by
    intro l
    induction l with
    | nil => intro j; rfl
    | cons a l ih => intro j; simp only [positionsIn, pts, List.map_cons]; rw [show List.map Prod.snd (positionsIn i (j+1) l) = l from ih (j + 1)]
  induction l with
  | nil => intro j pre post q x h; simp [positionsIn] at h
  | cons a l ih =>
    intro j pre post q x h
    rw [positionsIn] at h
    cases pre with
    | nil =>
      simp only [List.nil_append, List.cons.injEq, Prod.mk.injEq] at h
      obtain ⟨⟨h1, h2⟩, h3⟩ := h
      exact ⟨0, by rw [← h1]; rfl, by simp [h2], by simp [pts], by rw [← h3, hp]; simp⟩
    | cons c pre =>
      simp only [List.cons_append, List.cons.injEq] at h
      obtain ⟨n, h1, h2, h3, h4⟩ := ih (j + 1) pre post q x h.2
      refine ⟨n + 1, by rw [h1]; congr 1; omega, by simpa using h2, ?_, by rw [h4]; simp⟩
      rw [← h.1]
      simpa [pts] using h3

theorem positionsIn_pts (i : Nat) (l : List P) : ∀ j : Nat, pts (positionsIn i j l) = l := by
  induction l with
  | nil => intro j; rfl
  | cons a l ih => intro j; simp only [positionsIn, pts, List.map_cons]; rw [show List.map Prod.snd (positionsIn i (j+1) l) = l from ih (j + 1)]

theorem positions_pts (ls : List (List P)) : ∀ i : Nat, pts (positions i ls) = ls.flatten := by
  induction ls with
  | nil => intro i; rfl
  | cons l ls ih =>
    intro i
    rw [positions, pts, List.map_append, show List.map Prod.snd (positionsIn i 0 l) = l from positionsIn_pts i l 0,
      show List.map Prod.snd (positions (i+1) ls) = ls.flatten from ih (i + 1)]
    rfl

theorem positions_spec (ls : List (List P)) : ∀ (i : Nat) (pre post : List (Pos × P)) (q : Pos) (x : P),
    positions i ls = pre ++ (q, x) :: post →
    ∃ (m n : Nat) (l : List P), q = (i + m, n) ∧ ls[m]? = some l ∧ l[n]? = some x ∧
      pts pre = (ls.take m).flatten ++ l.take n ∧ pts post = l.drop (n + 1) ++ (ls.drop (m + 1)).flatten := by
  induction ls with
  | nil => intro i pre post q x h; simp [positions] at h
  | cons l ls ih =>
    intro i pre post q x h
    rw [positions] at h
    rcases List.append_eq_append_iff.1 h with ⟨c, h1, h2⟩ | ⟨c, h1, h2⟩
    · obtain ⟨m, n, l', g1, g2, g3, g4, g5⟩ := ih (i + 1) c post q x h2
      refine ⟨m + 1, n, l', by rw [g1]; congr 1; omega, by simpa using g2, g3, ?_, by simpa using g5⟩
      rw [h1, pts, List.map_append, show List.map Prod.snd (positionsIn i 0 l) = l from positionsIn_pts i l 0,
        show List.map Prod.snd c = _ from g4]
      simp
    · cases c with
      | nil =>
        simp only [List.nil_append] at h2
        obtain ⟨m, n, l', g1, g2, g3, g4, g5⟩ := ih (i + 1) [] post q x (by simpa using h2.symm)
        refine ⟨m + 1, n, l', by rw [g1]; congr 1; omega, by simpa using g2, g3, ?_, by simpa using g5⟩
        have : pts pre = l := by
          have := congrArg pts h1
          rw [positionsIn_pts] at this
          simpa using this.symm
        rw [this]
        simpa [pts] using g4
      | cons d c =>
        simp only [List.cons_append, List.cons.injEq] at h2
        rw [← h2.1] at h1
        obtain ⟨n, g1, g2, g3, g4⟩ := positionsIn_spec i l 0 pre c q x h1
        refine ⟨0, n, l, by rw [g1]; simp, by simp, g2, by simpa using g3, ?_⟩
        rw [h2.2, pts, List.map_append, show List.map Prod.snd c = _ from g4,
          show List.map Prod.snd (positions (i+1) ls) = ls.flatten from positions_pts ls (i + 1)]
        simp

/-! ### Points without repetitions -/

theorem squash_head? (l : List P) : (squash l).head? = l.head? := by
  induction l with
  | nil => rfl
  | cons a l ih =>
    cases l with
    | nil => rfl
    | cons b l =>
      rw [squash_cons2]
      split_ifs with h
      · rw [ih, h]; rfl
      · rfl

theorem squash_split (u : List P) (x : P) (v : List P) : squash (u ++ x :: v) = squash (u ++ [x]) ++ (squash (x :: v)).tail := by
  induction u with
  | nil =>
    have h := squash_head? (x :: v)
    obtain ⟨t, ht⟩ : ∃ t, squash (x :: v) = x :: t := ⟨_, List.eq_cons_of_mem_head? h⟩
    simp only [List.nil_append, ht]
    rfl
  | cons a u ih =>
    cases u with
    | nil =>
      simp only [List.cons_append, List.nil_append] at ih ⊢
      rw [squash_cons2, squash_cons2]
      split_ifs with h
      · exact ih
      · rw [ih]; rfl
    | cons b u =>
      simp only [List.cons_append] at ih ⊢
      rw [squash_cons2, squash_cons2]
      split_ifs with h
      · exact ih
      · rw [ih]; rfl

theorem squash_reverse (l : List P) : squash l.reverse = (squash l).reverse := by
  induction l with
  | nil => rfl
  | cons a l ih =>
    cases l with
    | nil => rfl
    | cons b l =>
      rw [List.reverse_cons, List.reverse_cons, List.append_assoc, List.singleton_append, squash_split,
        ← List.reverse_cons, ih, squash_cons2, squash_cons2]
      by_cases h : a = b
      · subst h; simp [squash]
      · have : b ≠ a := fun hh => h hh.symm
        rw [if_neg h, if_neg this]
        simp [squash]

theorem squash_getLast? (l : List P) : (squash l).getLast? = l.getLast? := by
  have := squash_head? l.reverse
  rwa [squash_reverse, List.head?_reverse, List.head?_reverse] at this

theorem squash_flatten_chain (ls : List (List P)) (hne : ∀ l ∈ ls, l ≠ []) (hc : ls.IsChain Meets) :
    squash ls.flatten = squash (joined ls) := by
  induction ls with
  | nil => rfl
  | cons a ls ih =>
    cases ls with
    | nil => simp [joined]
    | cons b ls =>
      rw [List.isChain_cons_cons] at hc
      have ha : a ≠ [] := hne a (by simp)
      have hb : b ≠ [] := hne b (by simp)
      have ih := ih (fun l hl => hne l (List.mem_cons_of_mem _ hl)) hc.2
      obtain ⟨q, b', rfl⟩ := List.exists_cons_of_ne_nil hb
      obtain ⟨a', rfl⟩ : ∃ a', a = a' ++ [q] := by
        have : a.getLast? = some q := hc.1
        obtain ⟨ys, h⟩ := List.getLast?_eq_some_iff.1 this
        exact ⟨ys, h⟩
      rw [joined_cons2 _ _ ls hb]
      have e1 : ((q :: b') :: ls).flatten = q :: (b' ++ ls.flatten) := by simp
      have e2 : joined ((q :: b') :: ls) = q :: (b' ++ ls.flatMap List.tail) := by simp [joined]
      rw [e1, e2] at ih
      rw [List.flatten_cons, e1, e2, List.append_assoc, List.append_assoc, List.singleton_append, squash_dup, List.tail_cons,
        List.singleton_append, squash_split, squash_split a' q (b' ++ ls.flatMap List.tail), ih]

theorem flatten_nonempty (ls : List (List P)) : (nonempty ls).flatten = ls.flatten := by
  induction ls with
  | nil => rfl
  | cons l ls ih =>
    rw [nonempty_cons]
    split_ifs with h
    · rw [ih, h]; rfl
    · rw [List.flatten_cons, ih]; rfl

/-- The points of connected lines, up to repetitions. -/
theorem squash_flatten {ls : List (List P)} (h : Connected ls) : squash ls.flatten = squash (joined (nonempty ls)) := by
  rw [← squash_flatten_chain _ (nonempty_all ls) h, flatten_nonempty]

/-! ### Parts -/

theorem mergeable_of {r : Route P} (hi : r.invalid = false) {l : List P} (hl : l ∈ r.lines) {s : P × P} (hs : s ∈ segs l)
    (hne : s.1 ≠ s.2) : r.mergeable = true := by
  by_contra h
  exact hne (not_mergeable hi h l hl s hs)

theorem mergeable_moves {r : Route P} (h : r.mergeable = true) : ∃ l ∈ r.lines, ∃ s ∈ segs l, s.1 ≠ s.2 := by
  unfold Route.mergeable at h
  split_ifs at h
  obtain ⟨l, hl, hs⟩ := List.any_eq_true.1 h
  obtain ⟨s, hs, hne⟩ := List.any_eq_true.1 hs
  exact ⟨l, hl, s, hs, of_decide_eq_true hne⟩

theorem still_iff (l : List P) : (∀ t ∈ segs l, t.1 = t.2) ↔ (squash l).tail = [] := by
  induction l with
  | nil => simp [segs, squash]
  | cons a l ih =>
    cases l with
    | nil => simp [segs, squash]
    | cons b l =>
      have hs : segs (a :: b :: l) = (a, b) :: segs (b :: l) := by simp [segs]
      rw [hs, squash_cons2]
      simp only [List.mem_cons, forall_eq_or_imp]
      by_cases h : a = b
      · rw [if_pos h, ih]; simp [h]
      · rw [if_neg h]
        have hh := squash_head? (b :: l)
        obtain ⟨t, ht⟩ : ∃ t, squash (b :: l) = b :: t := ⟨_, List.eq_cons_of_mem_head? hh⟩
        simp [h, ht]

theorem still_flatten {ls : List (List P)} (hc : Connected ls) :
    (∀ l ∈ ls, ∀ t ∈ segs l, t.1 = t.2) ↔ (squash ls.flatten).tail = [] := by
  rw [squash_flatten hc, ← still_iff, segs_joined _ (nonempty_all ls) hc]
  constructor
  · intro h t ht
    obtain ⟨l, hl, ht⟩ := List.mem_flatMap.1 ht
    exact h l (List.mem_filter.1 hl).1 t ht
  · intro h l hl t ht
    refine h t (List.mem_flatMap.2 ⟨l, List.mem_filter.2 ⟨hl, ?_⟩, ht⟩)
    have : l ≠ [] := by rintro rfl; simp [segs] at ht
    simpa using this

/-- A way that does not leave its first point is dropped. -/
def moving (l : List P) : List P := if l.tail = [] then [] else l

theorem meets_of_connected {u v : List (List P)} (hc : Connected (u ++ v)) {l1 l2 : List P} (h1 : u.getLast? = some l1)
    (h2 : v.head? = some l2) (n1 : l1 ≠ []) (n2 : l2 ≠ []) : Meets l1 l2 := by
  unfold Connected at hc
  rw [nonempty_append, List.isChain_append] at hc
  exact hc.2.2 l1 (nonempty_last h1 n1) l2 (nonempty_head h2 n2)

/-- Connected lines have no gap. -/
theorem no_gap (lss : List (List (List P))) : ∀ acc : List (List P), Connected (acc ++ lss.flatten) → ¬ hasGap acc lss := by
  induction lss with
  | nil => intro acc _ h; exact h
  | cons ls rest ih =>
    intro acc hc h
    rw [List.flatten_cons, ← List.append_assoc] at hc
    rcases h with h | h
    · have hc1 : Connected (acc ++ ls) := by
        unfold Connected at hc ⊢
        rw [nonempty_append] at hc
        exact hc.left_of_append
      unfold gapBetween at h
      cases h1 : acc.getLast? with
      | none => rw [h1] at h; simp at h
      | some l1 =>
        cases h2 : ls.head? with
        | none => rw [h1, h2] at h; simp at h
        | some l2 =>
          cases h3 : l1.getLast? with
          | none => rw [h1, h2] at h; simp [h3] at h
          | some p =>
            cases h4 : l2.head? with
            | none => rw [h1, h2] at h; simp [h4] at h
            | some q =>
              have hm := meets_of_connected hc1 h1 h2 (by rintro rfl; simp at h3) (by rintro rfl; simp at h4)
              rw [Meets, h3, h4] at hm
              rw [h1, h2] at h
              simp [h3, h4, Option.some.inj hm] at h
    · exact ih _ hc h

theorem merge_parts {ext : Ref P → Prop} {next : Nat} {rs : List (Route P)} (except : Bool) (hg : ∀ r ∈ rs, Good ext next r)
    (hv : ∀ r ∈ rs, r.invalid = false) (hne : rs ≠ []) (hc : Connected (rs.flatMap Route.lines)) :
    ∃ s n, merge false except next rs = .ok s ∧ Good ext n s ∧ s.invalid = false ∧
      s.lines = (rs.filter Route.mergeable).flatMap Route.lines ∧ Connected s.lines ∧
      squash (joined (nonempty s.lines)) = moving (squash (rs.flatMap Route.lines).flatten) := by
  obtain ⟨r0, hr0⟩ := List.exists_mem_of_ne_nil _ hne
  have hd := drop_usable rs hv
  have hu : (usable rs).flatten = (rs.filter Route.mergeable).flatMap Route.lines := rfl
  have hchain := drop_chain' hd hc
  obtain ⟨s, n, h1, h2, h3, h4⟩ : ∃ s n, merge false except next rs = .ok s ∧ Good ext n s ∧ s.invalid = false ∧
      s.lines = (rs.filter Route.mergeable).flatMap Route.lines := by
    obtain ⟨k1, k2, k3, k4⟩ := merge_ok (ext := ext) false except hg ⟨r0, hr0, hv r0 hr0⟩
    obtain ⟨s, hs⟩ : ∃ s, merge false except next rs = .ok s := by
      cases except with
      | false => exact k3 (.inr rfl)
      | true =>
        cases hm : merge false true next rs with
        | ok s => exact ⟨s, rfl⟩
        | throws =>
          have hgap := (k4 rfl rfl).1 hm
          exact absurd hgap (no_gap _ _ (by rw [List.nil_append]; exact hchain))
        | ub => exact absurd hm k2
    obtain ⟨k5, k6, n, k7⟩ := k1 s hs
    exact ⟨s, n, hs, k7, k5, by rw [k6, welded_false, List.nil_append]; rfl⟩
  rw [hu, ← h4] at hchain
  refine ⟨s, n, h1, h2, h3, h4, hchain, ?_⟩
  by_cases hm : ∃ r ∈ rs, r.mergeable = true
  · have hmove : (squash (rs.flatMap Route.lines).flatten).tail ≠ [] := by
      rw [Ne, ← still_flatten hc]
      push Not
      obtain ⟨r, hr, hrm⟩ := hm
      obtain ⟨l, hl, t, ht, hne⟩ := mergeable_moves hrm
      exact ⟨l, List.mem_flatMap.2 ⟨r, hr, hl⟩, t, ht, hne⟩
    rw [moving, if_neg hmove, squash_flatten hc, drop_squash hd hc (drop_nonempty_ne hm), hu, h4]
  · push Not at hm
    have hstill : (squash (rs.flatMap Route.lines).flatten).tail = [] := by
      rw [← still_flatten hc]
      intro l hl t ht
      obtain ⟨r, hr, hl⟩ := List.mem_flatMap.1 hl
      exact not_mergeable (hv r hr) (hm r hr) l hl t ht
    rw [moving, if_pos hstill, h4, List.filter_eq_nil_iff.2 (fun r hr => by simpa using hm r hr)]
    rfl

theorem Good.top {ext : Ref P → Prop} {n m : Nat} {r : Route P} (h : Good ext n r) (hm : r.top ≤ m) : Good ext m r := by
  refine ⟨h.nodup, h.order, h.alive, ?_⟩
  have : ∀ (xs : List (Ref P)) (x : Ref P), x ∈ xs → x.addr < xs.foldr (fun x n => max (x.addr + 1) n) 0 := by
    intro xs
    induction xs with
    | nil => intro x hx; simp at hx
    | cons y ys ih =>
      intro x hx
      rw [List.foldr_cons]
      rcases List.mem_cons.1 hx with rfl | hx
      · omega
      · have := ih x hx; omega
  intro x hx
  exact Nat.lt_of_lt_of_le (this _ x hx) hm

theorem Good.weaken {ext ext' : Ref P → Prop} {n : Nat} {r : Route P} (h : Good ext n r) (he : ∀ x, ext x → ext' x) :
    Good ext' n r :=
  ⟨h.nodup, h.order, fun x hx => (h.alive x hx).imp_right (he x), h.below⟩

/-- The same route with another reason for its references being alive. -/
theorem Good.realive {ext E : Ref P → Prop} {n : Nat} {r : Route P} (h : Good ext n r)
    (he : ∀ x ∈ r.refs, x ∈ r.own ∨ E x) : Good E n r :=
  ⟨h.nodup, h.order, he, h.below⟩

/-- The beginning of a route up to a position. -/
theorem prefix_part {ext E : Ref P → Prop} {next : Nat} {r : Route P} (hg : Good ext next r) (hc : Connected r.lines)
    (hE : ∀ b k m, subRoute r 0 b k = .ok m → ∀ x ∈ m.refs, x ∈ m.own ∨ E x) {first : List P} (hfirst : r.lines.head? = some first) (hf : first ≠ []) {i j : Nat} {l : List P}
    (hl : r.lines[i]? = some l) (hj : j < l.length) :
    ∃ s n, subRouteAt r 0 0 (i + 1) (j + 1) next = .ok s ∧ Good E n s ∧ s.invalid = false ∧
      Connected s.lines ∧ (∀ x ∈ s.lines, x ≠ [] ∨ x ∈ r.lines) ∧ (i = 0 → j = 0 → s.lines = []) ∧
      ((∃ t ∈ segs (l.take (j + 1)), t.1 ≠ t.2) → s.lines.getLast? = some (l.take (j + 1)) ∧
        squash (joined (nonempty s.lines)) = squash ((r.lines.take i).flatten ++ l.take (j + 1))) := by
  have hlen : r.lines.length = r.refs.length := by simp [Route.lines]
  have hi : i < r.lines.length := by
    by_contra h
    rw [List.getElem?_eq_none (by omega)] at hl
    simp at hl
  have hne : l ≠ [] := by rintro rfl; simp at hj
  obtain ⟨ref0, rest, href0⟩ : ∃ ref0 rest, r.refs = ref0 :: rest := by
    cases hr : r.refs with
    | nil => rw [hlen, hr] at hi; simp at hi
    | cons a b => exact ⟨a, b, rfl⟩
  have hline0 : ref0.line = first := by
    rw [Route.lines, href0] at hfirst
    simpa using hfirst
  have hbefore : lineBefore r (i + 1) = some l := by
    unfold lineBefore
    rw [if_neg (by omega)]
    simpa [Route.lines] using hl
  have hin : inRange r 0 0 (i + 1) (j + 1) = true := by
    unfold inRange
    rw [hbefore]
    have h0 : r.refs[0]? = some ref0 := by rw [href0]; rfl
    have : 0 < first.length := List.length_pos_of_ne_nil hf
    rw [h0]
    simp only [hline0, this, hne, Bool.and_eq_true, decide_eq_true_eq, List.isEmpty_eq_false_iff, Bool.not_eq_true',
      ne_eq, not_false_eq_true, and_true, true_and]
    omega
  have hsplit : r.lines.take (i + 1) = r.lines.take i ++ [l] := by
    rw [List.take_add_one, hl]; rfl
  -- the lines of the part are connected
  have hW : Connected (r.lines.take i ++ [l.take (j + 1)]) := by
    have h1 : Connected (r.lines.take (i + 1)) := by
      unfold Connected at hc ⊢
      rw [← List.take_append_drop (i + 1) r.lines, nonempty_append] at hc
      exact hc.left_of_append
    rw [hsplit] at h1
    unfold Connected at h1 ⊢
    have e1 : nonempty [l] = [l] := by simp [nonempty, hne]
    have e2 : nonempty [l.take (j + 1)] = [l.take (j + 1)] := by simp [nonempty, hne]
    rw [nonempty_append, e1] at h1
    rw [nonempty_append, e2]
    rw [List.isChain_append] at h1 ⊢
    refine ⟨h1.1, List.isChain_singleton _, ?_⟩
    intro u hu v hv
    simp only [List.head?_cons, Option.mem_def, Option.some.injEq] at hv
    subst hv
    have := h1.2.2 u hu l (by simp)
    rw [Meets] at this ⊢
    rw [this, List.head?_take, if_neg (by omega)]
  have key : ∀ rs : List (Route P), tailParts r 0 (i + 1) (some l) (j + 1) (next + 1) = .ok rs → rs ≠ [] →
      rs.flatMap Route.lines = r.lines.take i ++ [l.take (j + 1)] →
      (∀ x ∈ rs, x.invalid = false ∧ Good E (next + 2 + r.refs.length) x) →
      (∃ x, rs.getLast? = some x ∧ x.lines.getLast? = some (l.take (j + 1))) →
      ∃ s n, subRouteAt r 0 0 (i + 1) (j + 1) next = .ok s ∧ Good E n s ∧ s.invalid = false ∧
      Connected s.lines ∧ (∀ x ∈ s.lines, x ≠ [] ∨ x ∈ r.lines) ∧ (i = 0 → j = 0 → s.lines = []) ∧
      ((∃ t ∈ segs (l.take (j + 1)), t.1 ≠ t.2) → s.lines.getLast? = some (l.take (j + 1)) ∧
        squash (joined (nonempty s.lines)) = squash ((r.lines.take i).flatten ++ l.take (j + 1))) := by
    intro rs h1 h2 h3 h4 h5
    obtain ⟨s, n, g1, g2, g3, g4, g5, g6⟩ := merge_parts false (fun x hx => (h4 x hx).2) (fun x hx => (h4 x hx).1) h2
      (by rw [h3]; exact hW)
    have hsub : ∀ x ∈ s.lines, x ≠ [] ∨ x ∈ r.lines := by
      intro x hx
      rw [g4] at hx
      have hx2 : x ∈ rs.flatMap Route.lines := by
        obtain ⟨y, hy, hxy⟩ := List.mem_flatMap.1 hx
        exact List.mem_flatMap.2 ⟨y, (List.mem_filter.1 hy).1, hxy⟩
      rw [h3] at hx2
      rcases List.mem_append.1 hx2 with h | h
      · exact .inr (List.mem_of_mem_take h)
      · rw [List.mem_singleton.1 h]
        exact .inl (by simp [hne])
    refine ⟨s, n, ?_, g2, g3, g5, hsub, ?_, ?_⟩
    · rw [subRouteAt, if_pos hin, href0]
      simp only [List.getElem?_cons_zero, headPart, Nat.lt_irrefl, if_false, hbefore, Outcome.bind_ok, h1, List.nil_append]
      rw [href0] at g1
      exact g1
    · intro hi0 hj0
      rw [g4, List.filter_eq_nil_iff.2]
      · rfl
      intro x hx hm
      obtain ⟨l', hl', t, ht, hne⟩ := mergeable_moves hm
      have : l' ∈ rs.flatMap Route.lines := List.mem_flatMap.2 ⟨x, hx, hl'⟩
      rw [h3, hi0, hj0] at this
      simp only [List.take_zero, List.nil_append, List.mem_singleton] at this
      subst this
      cases l with
      | nil => simp at hj
      | cons p ps => simp [segs] at ht
    · rintro ⟨t, ht, htne⟩
      obtain ⟨x, hx, hxl⟩ := h5
      have hxm : x.mergeable = true :=
        mergeable_of (h4 x (List.mem_of_getLast? hx)).1 (List.mem_of_getLast? hxl) ht htne
      obtain ⟨ys, rfl⟩ := List.getLast?_eq_some_iff.1 hx
      have hlast : s.lines.getLast? = some (l.take (j + 1)) := by
        rw [g4, List.filter_append, List.flatMap_append, List.filter_cons_of_pos hxm]
        simp [hxl]
      refine ⟨hlast, ?_⟩
      have hmove : (squash (r.lines.take i ++ [l.take (j + 1)]).flatten).tail ≠ [] := by
        rw [Ne, ← still_flatten hW]
        push Not
        exact ⟨_, by simp, t, ht, htne⟩
      rw [g6, h3, moving, if_neg hmove]
      simp
  by_cases hbl : j + 1 < l.length
  · obtain ⟨m, m1, m2, m3, m4⟩ := subRoute_good (a := 0) (b := i) (k := next + 1) hg (by omega) ⟨by omega, by omega, by omega⟩
    refine key [m, Route.ofOwn [⟨next + 1 + r.refs.length, l.take (j + 1)⟩]] ?_ (by simp) ?_ ?_ ?_
    · rw [tailParts, if_pos hbl]
      have : subLine l 0 (j + 1) = .ok (l.take (j + 1)) := by
        rw [subLine, if_pos ⟨by omega, by omega, by omega⟩]
        simp
      simp only [Nat.add_sub_cancel, m1, Outcome.bind_ok, this, Outcome.map_ok]
    · simp only [List.flatMap_cons, List.flatMap_nil, m2, List.drop_zero, Nat.sub_zero]
      rfl
    · intro x hx
      simp only [List.mem_cons, List.not_mem_nil, or_false] at hx
      rcases hx with rfl | rfl
      · exact ⟨m3, (m4.realive (hE _ _ _ m1)).mono (by omega)⟩
      · exact ⟨rfl, ofOwn_good _ (by omega) _⟩
    · exact ⟨_, rfl, rfl⟩
  · obtain ⟨m, m1, m2, m3, m4⟩ := subRoute_good (a := 0) (b := i + 1) (k := next + 1) hg (by omega) ⟨by omega, by omega, by omega⟩
    have hfull : l.take (j + 1) = l := List.take_of_length_le (by omega)
    have hm : m.lines = r.lines.take i ++ [l.take (j + 1)] := by
      rw [m2, hfull, ← hsplit]; simp
    refine key [m] ?_ (by simp) ?_ ?_ ?_
    · rw [tailParts, if_neg hbl, if_pos (by omega), m1, Outcome.map_ok]
    · simp [hm]
    · intro x hx
      simp only [List.mem_singleton] at hx
      subst hx
      exact ⟨m3, (m4.realive (hE _ _ _ m1)).mono (by omega)⟩
    · exact ⟨m, rfl, by rw [hm]; simp⟩

/-- The rest of a route from a position on. -/
theorem suffix_part {ext E : Ref P → Prop} {next : Nat} {r : Route P} (hg : Good ext next r) (hc : Connected r.lines)
    (hE : ∀ a k m, subRoute r a r.refs.length k = .ok m → ∀ x ∈ m.refs, x ∈ m.own ∨ E x) {last : List P} (hlast : r.lines.getLast? = some last) (hf : last ≠ []) {i j : Nat} {l : List P}
    (hl : r.lines[i]? = some l) (hj : j < l.length) :
    ∃ s n, subRouteAt r i j r.refs.length last.length next = .ok s ∧ Good E n s ∧ s.invalid = false ∧
      Connected s.lines ∧ (∀ x ∈ s.lines, x ≠ [] ∨ x ∈ r.lines) ∧
      squash (joined (nonempty s.lines)) = moving (squash (l.drop j ++ (r.lines.drop (i + 1)).flatten)) ∧
      ((∃ t ∈ segs (l.drop j), t.1 ≠ t.2) → s.lines.head? = some (l.drop j)) := by
  have hlen : r.lines.length = r.refs.length := by simp [Route.lines]
  have hi : i < r.lines.length := by
    by_contra h
    rw [List.getElem?_eq_none (by omega)] at hl
    simp at hl
  have hne : l ≠ [] := by rintro rfl; simp at hj
  obtain ⟨refA, hrefA, hlineA⟩ : ∃ ref, r.refs[i]? = some ref ∧ ref.line = l := by
    simpa [Route.lines] using hl
  have hbefore : lineBefore r r.refs.length = some last := by
    unfold lineBefore
    rw [if_neg (by omega)]
    rw [List.getLast?_eq_getElem?] at hlast
    rw [hlen] at hlast
    simpa [Route.lines] using hlast
  have hin : inRange r i j r.refs.length last.length = true := by
    unfold inRange
    rw [hbefore, hrefA]
    simp only [hlineA, hj, hf, Bool.and_eq_true, decide_eq_true_eq, List.isEmpty_eq_false_iff, Bool.not_eq_true',
      ne_eq, not_false_eq_true, and_true, true_and]
    omega
  have hsplit : r.lines.drop i = l :: r.lines.drop (i + 1) := by
    have : l = r.lines[i] := by
      rw [List.getElem?_eq_getElem hi] at hl
      exact (Option.some.inj hl).symm
    rw [this]
    exact List.drop_eq_getElem_cons hi
  have hW : Connected (l.drop j :: r.lines.drop (i + 1)) := by
    have h1 : Connected (r.lines.drop i) := by
      unfold Connected at hc ⊢
      rw [← List.take_append_drop i r.lines, nonempty_append] at hc
      exact hc.right_of_append
    rw [hsplit] at h1
    unfold Connected at h1 ⊢
    rw [nonempty_cons, if_neg hne] at h1
    rw [nonempty_cons, if_neg (by simp; omega)]
    cases hn : nonempty (r.lines.drop (i + 1)) with
    | nil => exact List.isChain_singleton _
    | cons v vs =>
      rw [hn, List.isChain_cons_cons] at h1
      rw [List.isChain_cons_cons]
      refine ⟨?_, h1.2⟩
      rw [Meets, List.getLast?_drop, if_neg (by omega)]
      exact h1.1
  have key : ∀ hs ts : List (Route P), headPart l j next = .ok hs →
      tailParts r (if 0 < j then i + 1 else i) r.refs.length (some last) last.length (next + 1) = .ok ts → hs ++ ts ≠ [] →
      (hs ++ ts).flatMap Route.lines = l.drop j :: r.lines.drop (i + 1) →
      (∀ x ∈ hs ++ ts, x.invalid = false ∧ Good E (next + 2 + r.refs.length) x) →
      (∃ x, (hs ++ ts).head? = some x ∧ x.lines.head? = some (l.drop j)) →
      ∃ s n, subRouteAt r i j r.refs.length last.length next = .ok s ∧ Good E n s ∧ s.invalid = false ∧
      Connected s.lines ∧ (∀ x ∈ s.lines, x ≠ [] ∨ x ∈ r.lines) ∧
      squash (joined (nonempty s.lines)) = moving (squash (l.drop j ++ (r.lines.drop (i + 1)).flatten)) ∧
      ((∃ t ∈ segs (l.drop j), t.1 ≠ t.2) → s.lines.head? = some (l.drop j)) := by
    intro hs ts h0 h1 h2 h3 h4 h5
    obtain ⟨s, n, g1, g2, g3, g4, g5, g6⟩ := merge_parts false (fun x hx => (h4 x hx).2) (fun x hx => (h4 x hx).1) h2
      (by rw [h3]; exact hW)
    have hsub : ∀ x ∈ s.lines, x ≠ [] ∨ x ∈ r.lines := by
      intro x hx
      rw [g4] at hx
      have hx2 : x ∈ (hs ++ ts).flatMap Route.lines := by
        obtain ⟨y, hy, hxy⟩ := List.mem_flatMap.1 hx
        exact List.mem_flatMap.2 ⟨y, (List.mem_filter.1 hy).1, hxy⟩
      rw [h3] at hx2
      rcases List.mem_cons.1 hx2 with h | h
      · rw [h]
        exact .inl (by simp; omega)
      · exact .inr (List.mem_of_mem_drop h)
    refine ⟨s, n, ?_, g2, g3, g5, hsub, ?_, ?_⟩
    · rw [subRouteAt, if_pos hin, hrefA]
      simp only [hlineA, h0, hbefore, Outcome.bind_ok, h1]
      exact g1
    · rw [g6, h3]; simp
    · rintro ⟨t, ht, htne⟩
      obtain ⟨x, hx, hxl⟩ := h5
      obtain ⟨ys, hys⟩ : ∃ ys, hs ++ ts = x :: ys := ⟨_, List.eq_cons_of_mem_head? hx⟩
      have hxm : x.mergeable = true := mergeable_of (h4 x (by rw [hys]; simp)).1 (List.mem_of_head? hxl) ht htne
      rw [g4, hys, List.filter_cons_of_pos hxm]
      simp [hxl]
  by_cases h0 : 0 < j
  · have hhead : headPart l j next = .ok [Route.ofOwn [⟨next, l.drop j⟩]] := by
      rw [headPart, if_pos h0, subLine, if_pos ⟨by omega, hj, le_refl _⟩, Outcome.map_ok]
      rw [List.take_of_length_le (by simp)]
    have hown : Good E (next + 2 + r.refs.length) (Route.ofOwn [⟨next, l.drop j⟩]) := ofOwn_good _ (by omega) _
    by_cases hil : i + 1 < r.refs.length
    · obtain ⟨m, m1, m2, m3, m4⟩ := subRoute_good (a := i + 1) (b := r.refs.length) (k := next + 1) hg (by omega)
        ⟨by omega, by omega, by omega⟩
      have hm : m.lines = r.lines.drop (i + 1) := by
        rw [m2, List.take_of_length_le (by simp; omega)]
      refine key _ [m] hhead ?_ (by simp) ?_ ?_ ⟨_, rfl, rfl⟩
      · rw [if_pos h0, tailParts, if_neg (by omega), if_pos hil, m1, Outcome.map_ok]
      · simp only [List.singleton_append, List.flatMap_cons, List.flatMap_nil, hm, List.append_nil]; rfl
      · intro x hx
        simp only [List.singleton_append, List.mem_cons, List.not_mem_nil, or_false] at hx
        rcases hx with rfl | rfl
        · exact ⟨rfl, hown⟩
        · exact ⟨m3, (m4.realive (hE _ _ _ m1)).mono (by omega)⟩
    · refine key _ [] hhead ?_ (by simp) ?_ ?_ ⟨_, rfl, rfl⟩
      · rw [if_pos h0, tailParts, if_neg (by omega), if_neg hil]
      · have hd : r.lines.drop (i + 1) = [] := List.drop_eq_nil_of_le (by omega)
        rw [hd]; rfl
      · intro x hx
        simp only [List.append_nil, List.mem_singleton] at hx
        subst hx
        exact ⟨rfl, hown⟩
  · have hj0 : j = 0 := by omega
    subst hj0
    obtain ⟨m, m1, m2, m3, m4⟩ := subRoute_good (a := i) (b := r.refs.length) (k := next + 1) hg (by omega)
      ⟨by omega, by omega, by omega⟩
    have hm : m.lines = l :: r.lines.drop (i + 1) := by
      rw [m2, List.take_of_length_le (by simp; omega), hsplit]
    refine key [] [m] rfl ?_ (by simp) ?_ ?_ ⟨m, rfl, by rw [hm]; rfl⟩
    · rw [if_neg h0, tailParts, if_neg (by omega), if_pos (by omega), m1, Outcome.map_ok]
    · simp [hm]
    · intro x hx
      simp only [List.nil_append, List.mem_singleton] at hx
      subst hx
      exact ⟨m3, (m4.realive (hE _ _ _ m1)).mono (by omega)⟩

/-! ### Joined routes stay alive -/

theorem good_replace {ext : Ref P → Prop} {n : Nat} {r : Route P} (hg : Good ext n r) {u v : List (Ref P)} {ref : Ref P}
    (hr : r.refs = u ++ ref :: v) {new : List (Ref P)} {k : Nat} (hk : n ≤ k) (hnew : new = [] ∨ ∃ line, new = [⟨k, line⟩]) :
    Good ext (k + 1) ⟨u.filter (fun x => decide (x.addr ∈ r.own.map Ref.addr)) ++ new ++
      v.filter (fun x => decide (x.addr ∈ r.own.map Ref.addr)), u ++ new ++ v, r.invalid⟩ := by
  have hsub : ∀ x, x ∈ u ∨ x ∈ v → x ∈ r.refs := by
    intro x hx
    rw [hr]
    rcases hx with h | h <;> simp [h]
  have hlt : ∀ x, x ∈ u ∨ x ∈ v → x.addr < k := fun x hx => Nat.lt_of_lt_of_le (hg.below x (hsub x hx)) hk
  have hnewk : ∀ x ∈ new, x.addr = k := by
    rcases hnew with rfl | ⟨line, rfl⟩ <;> simp
  have hown : r.own = u.filter (fun x => decide (x.addr ∈ r.own.map Ref.addr)) ++
      (List.filter (fun x => decide (x.addr ∈ r.own.map Ref.addr)) [ref]) ++
      v.filter (fun x => decide (x.addr ∈ r.own.map Ref.addr)) := by
    have := hg.order
    rw [hr] at this
    conv_lhs => rw [← this]
    rw [List.filter_append, ← List.singleton_append, List.filter_append, List.append_assoc]
  have hkeep : ∀ x, x ∈ u ∨ x ∈ v → (x.addr ∈ ((u.filter (fun x => decide (x.addr ∈ r.own.map Ref.addr)) ++ new ++
      v.filter (fun x => decide (x.addr ∈ r.own.map Ref.addr))).map Ref.addr) ↔ x.addr ∈ r.own.map Ref.addr) := by
    intro x hx
    constructor
    · intro h
      obtain ⟨y, hy, hxy⟩ := List.mem_map.1 h
      rcases List.mem_append.1 hy with hy | hy
      · rcases List.mem_append.1 hy with hy | hy
        · have := of_decide_eq_true (List.mem_filter.1 hy).2
          rwa [hxy] at this
        · have h1 := hnewk y hy
          have h2 := hlt x hx
          omega
      · have := of_decide_eq_true (List.mem_filter.1 hy).2
        rwa [hxy] at this
    · intro h
      refine List.mem_map.2 ⟨x, ?_, rfl⟩
      rcases hx with hx | hx
      · exact List.mem_append_left _ (List.mem_append_left _ (List.mem_filter.2 ⟨hx, by simpa using h⟩))
      · exact List.mem_append_right _ (List.mem_filter.2 ⟨hx, by simpa using h⟩)
  refine ⟨?_, ?_, ?_, ?_⟩
  · have h1 : ((u.filter (fun x => decide (x.addr ∈ r.own.map Ref.addr)) ++
        v.filter (fun x => decide (x.addr ∈ r.own.map Ref.addr))).map Ref.addr).Nodup := by
      refine hg.nodup.sublist (List.Sublist.map _ ?_)
      conv_rhs => rw [hown]
      exact List.Sublist.append (List.sublist_append_left _ _) (List.Sublist.refl _)
    have h2 : ∀ x ∈ (u.filter (fun x => decide (x.addr ∈ r.own.map Ref.addr)) ++
        v.filter (fun x => decide (x.addr ∈ r.own.map Ref.addr))), x.addr < k := by
      intro x hx
      rcases List.mem_append.1 hx with hx | hx
      · exact hlt x (.inl (List.mem_filter.1 hx).1)
      · exact hlt x (.inr (List.mem_filter.1 hx).1)
    rcases hnew with rfl | ⟨line, rfl⟩
    · simpa using h1
    · rw [List.map_append, List.map_append, List.append_assoc, List.map_singleton, List.singleton_append,
        List.nodup_middle, List.nodup_cons, ← List.map_append]
      refine ⟨?_, h1⟩
      intro hmem
      obtain ⟨y, hy, hxy⟩ := List.mem_map.1 hmem
      have := h2 y hy
      simp only at hxy
      omega
  · simp only
    rw [List.filter_append, List.filter_append]
    congr 1
    · congr 1
      · apply List.filter_congr
        intro x hx
        exact decide_eq_decide.2 (hkeep x (.inl hx))
      · rw [List.filter_eq_self]
        intro x hx
        simp only [decide_eq_true_eq]
        exact List.mem_map.2 ⟨x, by simp [hx], rfl⟩
    · apply List.filter_congr
      intro x hx
      exact decide_eq_decide.2 (hkeep x (.inr hx))
  · intro x hx
    simp only at hx ⊢
    rcases List.mem_append.1 hx with hx | hx
    · rcases List.mem_append.1 hx with hx | hx
      · rcases hg.alive x (hsub x (.inl hx)) with h | h
        · left
          exact List.mem_append_left _ (List.mem_append_left _ (List.mem_filter.2 ⟨hx, by simpa using ⟨x, h, rfl⟩⟩))
        · exact .inr h
      · left; simp [hx]
    · rcases hg.alive x (hsub x (.inr hx)) with h | h
      · left
        exact List.mem_append_right _ (List.mem_filter.2 ⟨hx, by simpa using ⟨x, h, rfl⟩⟩)
      · exact .inr h
  · intro x hx
    simp only at hx
    rcases List.mem_append.1 hx with hx | hx
    · rcases List.mem_append.1 hx with hx | hx
      · have := hlt x (.inl hx); omega
      · have := hnewk x hx; omega
    · have := hlt x (.inr hx); omega

theorem replaceLast_good {ext : Ref P → Prop} {n k : Nat} {r : Route P} (hg : Good ext n r) (hk : n ≤ k) {ref : Ref P}
    (hr : r.refs.getLast? = some ref) (line : List P) : Good ext (k + 1) (replaceLast r ref line k) := by
  obtain ⟨u, hu⟩ := List.getLast?_eq_some_iff.1 hr
  have hown : r.own = u.filter (fun x => decide (x.addr ∈ r.own.map Ref.addr)) ++
      (List.filter (fun x => decide (x.addr ∈ r.own.map Ref.addr)) [ref]) := by
    have := hg.order
    rw [hu] at this
    conv_lhs => rw [← this]
    rw [List.filter_append]
  have hown' : (if (r.own.getLast?.map Ref.addr) = some ref.addr then r.own.dropLast else r.own) =
      u.filter (fun x => decide (x.addr ∈ r.own.map Ref.addr)) := by
    by_cases hm : ref.addr ∈ r.own.map Ref.addr
    · have e : List.filter (fun x => decide (x.addr ∈ r.own.map Ref.addr)) [ref] = [ref] := by
        rw [List.filter_cons_of_pos (by simpa using hm)]; rfl
      rw [e] at hown
      generalize hF : u.filter (fun x => decide (x.addr ∈ r.own.map Ref.addr)) = F at hown ⊢
      rw [hown]
      simp
    · have e : List.filter (fun x => decide (x.addr ∈ r.own.map Ref.addr)) [ref] = [] := by
        rw [List.filter_cons_of_neg (by simpa using hm)]; rfl
      rw [e, List.append_nil] at hown
      rw [if_neg, ← hown]
      intro h
      obtain ⟨y, hy, hya⟩ := Option.map_eq_some_iff.1 h
      exact hm (List.mem_map.2 ⟨y, List.mem_of_getLast? hy, hya⟩)
  have hbase : ∀ new : List (Ref P), (new = [] ∨ ∃ line, new = [⟨k, line⟩]) →
      Good ext (k + 1) ⟨u.filter (fun x => decide (x.addr ∈ r.own.map Ref.addr)) ++ new, u ++ new, r.invalid⟩ := by
    intro new hn
    have := good_replace hg (u := u) (v := []) (ref := ref) hu hk hn
    simpa using this
  unfold replaceLast
  simp only [hown']
  have hd : r.refs.dropLast = u := by rw [hu, List.dropLast_concat]
  rw [hd]
  split_ifs
  · simpa using hbase [] (.inl rfl)
  · exact hbase _ (.inr ⟨line, rfl⟩)

theorem replaceFirst_good {ext : Ref P → Prop} {n k : Nat} {r : Route P} (hg : Good ext n r) (hk : n ≤ k) {ref : Ref P}
    (hr : r.refs.head? = some ref) (line : List P) : Good ext (k + 1) (replaceFirst r ref line k) := by
  obtain ⟨v, hv⟩ : ∃ v, r.refs = ref :: v := ⟨_, List.eq_cons_of_mem_head? hr⟩
  have hown : r.own = (List.filter (fun x => decide (x.addr ∈ r.own.map Ref.addr)) [ref]) ++
      v.filter (fun x => decide (x.addr ∈ r.own.map Ref.addr)) := by
    have := hg.order
    rw [hv] at this
    conv_lhs => rw [← this]
    rw [← List.filter_append]
    rfl
  have hown' : (if (r.own.head?.map Ref.addr) = some ref.addr then r.own.tail else r.own) =
      v.filter (fun x => decide (x.addr ∈ r.own.map Ref.addr)) := by
    by_cases hm : ref.addr ∈ r.own.map Ref.addr
    · have e : List.filter (fun x => decide (x.addr ∈ r.own.map Ref.addr)) [ref] = [ref] := by
        rw [List.filter_cons_of_pos (by simpa using hm)]; rfl
      rw [e] at hown
      generalize hF : v.filter (fun x => decide (x.addr ∈ r.own.map Ref.addr)) = F at hown ⊢
      rw [hown]
      simp
    · have e : List.filter (fun x => decide (x.addr ∈ r.own.map Ref.addr)) [ref] = [] := by
        rw [List.filter_cons_of_neg (by simpa using hm)]; rfl
      rw [e, List.nil_append] at hown
      rw [if_neg, ← hown]
      intro h
      obtain ⟨y, hy, hya⟩ := Option.map_eq_some_iff.1 h
      exact hm (List.mem_map.2 ⟨y, List.mem_of_head? hy, hya⟩)
  have hbase : ∀ new : List (Ref P), (new = [] ∨ ∃ line, new = [⟨k, line⟩]) →
      Good ext (k + 1) ⟨new ++ v.filter (fun x => decide (x.addr ∈ r.own.map Ref.addr)), new ++ v, r.invalid⟩ := by
    intro new hn
    have := good_replace hg (u := []) (v := v) (ref := ref) hv hk hn
    simpa using this
  unfold replaceFirst
  simp only [hown']
  have hd : r.refs.tail = v := by rw [hv]; rfl
  rw [hd]
  split_ifs
  · simpa using hbase [] (.inl rfl)
  · exact hbase [_] (.inr ⟨line, rfl⟩)

/-- Joining leaves no dangling references. -/
theorem join_good {ext : Ref P → Prop} (G : Geo P R A) (turn : A → Bool) (retain : Bool) {n k : Nat} {a b : Route P}
    (ha : Good ext n a) (hb : Good ext n b) (hk : n ≤ k) :
    Good ext (k + 2) (join G turn retain k a b).1 ∧ Good ext (k + 2) (join G turn retain k a b).2 := by
  have hid : Good ext (k + 2) a ∧ Good ext (k + 2) b := ⟨ha.mono (by omega), hb.mono (by omega)⟩
  unfold join
  split_ifs with h1
  · exact hid
  · cases hra : a.refs.getLast? with
    | none => simpa using hid
    | some ra =>
      cases hrb : b.refs.head? with
      | none => simpa using hid
      | some rb =>
        simp only
        split_ifs
        · exact hid
        · exact hid
        · exact ⟨(replaceLast_good ha hk hra _).mono (by omega), replaceFirst_good hb (by omega) hrb _⟩

/-! ### Trimming -/

/-- The way along `ra` to `x` and on along `rb` turns back at `x`. -/
def Turns (G : Geo P R A) (turn : A → Bool) (ra : List P) (x : P) (rb : List P) : Prop :=
  ∃ y z, ra.getLast? = some y ∧ rb.head? = some z ∧ turn (G.dir (G.az y x) (G.az x z)) = true

theorem mergeTwo_spec {ext : Ref P → Prop} {next n m : Nat} {a b : Route P} (ha : Good ext n a) (hb : Good ext m b)
    (hia : a.invalid = false) (hib : b.invalid = false) (hc : Connected (a.lines ++ b.lines)) :
    ∃ s k, mergeTwo next (a, b) = .ok s ∧ Good ext k s ∧ s.invalid = false ∧ s.isConnected = true ∧
      Connected s.lines ∧ (∀ x ∈ s.lines, x ∈ a.lines ∨ x ∈ b.lines) ∧
      ∃ p, s.richLine = .ok p ∧ squash p = moving (squash (a.lines ++ b.lines).flatten) := by
  have hg : ∀ r ∈ [a, b], Good ext (max next (max a.top b.top)) r := by
    intro r hr
    simp only [List.mem_cons, List.not_mem_nil, or_false] at hr
    rcases hr with rfl | rfl
    · exact ha.top (by omega)
    · exact hb.top (by omega)
  have hv : ∀ r ∈ [a, b], r.invalid = false := by
    intro r hr
    simp only [List.mem_cons, List.not_mem_nil, or_false] at hr
    rcases hr with rfl | rfl <;> assumption
  have hf : [a, b].flatMap Route.lines = a.lines ++ b.lines := by simp
  obtain ⟨s, k, g1, g2, g3, g4, g5, g6⟩ := merge_parts false hg hv (by simp) (by rw [hf]; exact hc)
  rw [hf] at g6
  refine ⟨s, k, g1, g2, g3, connected_reported g5, g5, ?_, _, richLine_connected g5, g6⟩
  intro x hx
  rw [g4] at hx
  obtain ⟨y, hy, hxy⟩ := List.mem_flatMap.1 hx
  have := (List.mem_filter.1 hy).1
  simp only [List.mem_cons, List.not_mem_nil, or_false] at this
  rcases this with rfl | rfl
  · exact .inl hxy
  · exact .inr hxy

theorem flatten_last {ls : List (List P)} {l : List P} (hc : Connected (ls ++ [l])) {p : P} (hl : l.head? = some p) :
    ∀ q, ls.flatten.getLast? = some q → q = p := by
  intro q hq
  have hne : l ≠ [] := by rintro rfl; simp at hl
  have e1 : nonempty [l] = [l] := by simp [nonempty, hne]
  unfold Connected at hc
  rw [nonempty_append, e1, List.isChain_append] at hc
  have hc1 : Connected ls := hc.1
  cases hu : (nonempty ls).getLast? with
  | none =>
    rw [List.getLast?_eq_none_iff] at hu
    rw [← flatten_nonempty, hu] at hq
    simp at hq
  | some u =>
    have hm := hc.2.2 u hu l (by simp)
    have h1 := joined_getLast? (nonempty ls) hc1 (nonempty_all ls) hu
    have h2 := congrArg List.getLast? (squash_flatten hc1)
    rw [squash_getLast?, squash_getLast?, h1, hq, hm, hl] at h2
    exact Option.some.inj h2

theorem flatten_first {ls : List (List P)} {l : List P} (hc : Connected (l :: ls)) {p : P} (hl : l.getLast? = some p) :
    ∀ q, ls.flatten.head? = some q → q = p := by
  intro q hq
  have hne : l ≠ [] := by rintro rfl; simp at hl
  unfold Connected at hc
  rw [nonempty_cons, if_neg hne] at hc
  cases hn : nonempty ls with
  | nil =>
    rw [← flatten_nonempty, hn] at hq
    simp at hq
  | cons u us =>
    rw [hn, List.isChain_cons_cons] at hc
    have hu : u ≠ [] := nonempty_all ls u (by rw [hn]; simp)
    obtain ⟨c, u', rfl⟩ := List.exists_cons_of_ne_nil hu
    rw [← flatten_nonempty, hn] at hq
    have h1 : l.getLast? = some c := hc.1
    rw [hl] at h1
    simp only [List.flatten_cons, List.cons_append, List.head?_cons, Option.some.injEq] at hq
    rw [← hq]
    exact (Option.some.inj h1).symm

theorem moving_moving (l : List P) : moving (moving l) = moving l := by
  unfold moving
  by_cases h : l.tail = [] <;> simp [h]

theorem squash_meet {u v : List P} {ra rb : List P} {x : P} (hu : squash u = ra ++ [x]) (hv : squash v = x :: rb) :
    squash (u ++ v) = ra ++ x :: rb := by
  have h1 := squash_getLast? u
  rw [hu, List.getLast?_append] at h1
  obtain ⟨u', rfl⟩ := List.getLast?_eq_some_iff.1 (by simpa using h1.symm : u.getLast? = some x)
  have h2 := squash_head? v
  rw [hv] at h2
  obtain ⟨v', rfl⟩ : ∃ v', v = x :: v' := ⟨_, List.eq_cons_of_mem_head? h2.symm⟩
  rw [List.append_assoc, List.singleton_append, squash_dup, squash_split, hu, hv]
  simp

theorem subRoute_alive {ext : Ref P → Prop} {n : Nat} {r : Route P} (hg : Good ext n r) {a b k : Nat} {m : Route P}
    (h : subRoute r a b k = .ok m) : ∀ x ∈ m.refs, x ∈ m.own ∨ Alive ext r x := by
  have hab : a ≤ b ∧ a < r.refs.length ∧ b ≤ r.refs.length := by
    by_contra hc
    rw [subRoute, if_neg hc] at h
    simp at h
  have key : ∀ (refs own : List (Ref P)) (acc : Acc P), (∀ x ∈ refs, Alive ext r x) →
      (∀ x ∈ acc.refs, x ∈ acc.own ∨ Alive ext r x) →
      ∀ x ∈ (copyRefs own refs acc).refs, x ∈ (copyRefs own refs acc).own ∨ Alive ext r x := by
    intro refs
    induction refs with
    | nil => intro own acc _ h2; simpa [copyRefs] using h2
    | cons y ys ih =>
      intro own acc h1 h2
      rw [copyRefs]
      cases hso : searchOwn y own with
      | mk fo os =>
        cases fo with
        | none =>
          refine ih _ _ (fun x hx => h1 x (List.mem_cons_of_mem _ hx)) ?_
          intro x hx
          rcases List.mem_append.1 hx with hx | hx
          · exact h2 x hx
          · rw [List.mem_singleton.1 hx]; exact .inr (h1 y List.mem_cons_self)
        | some o =>
          refine ih _ _ (fun x hx => h1 x (List.mem_cons_of_mem _ hx)) ?_
          intro x hx
          rcases List.mem_append.1 hx with hx | hx
          · exact (h2 x hx).imp_left (fun h => List.mem_append_left _ h)
          · exact .inl (List.mem_append_right _ hx)
  rw [subRoute, if_pos hab, build] at h
  split_ifs at h
  simp only [Outcome.ok.injEq] at h
  subst h
  refine key _ _ _ ?_ (by simp)
  intro x hx
  exact ((hg.alive x (List.mem_of_mem_drop (List.mem_of_mem_take hx))).symm : _)

/-- As `trim_merge_partial`, with any reason `E` for the references of parts being alive. -/
theorem trim_merge_gen (G : Geo P R A) (turn : A → Bool) {ext E : Ref P → Prop} {n next : Nat} {a b : Route P}
    (hga : Good ext n a) (hgb : Good ext n b) (hn : n ≤ next) (hia : a.invalid = false) (hib : b.invalid = false)
    (hEa : ∀ i k m, subRoute a 0 i k = .ok m → ∀ x ∈ m.refs, x ∈ m.own ∨ E x)
    (hEb : ∀ i k m, subRoute b i b.refs.length k = .ok m → ∀ x ∈ m.refs, x ∈ m.own ∨ E x)
    (hca : Connected a.lines) (hcb : Connected b.lines) {first last : List P} (hfirst : a.lines.head? = some first)
    (hlast : b.lines.getLast? = some last) (hf : first ≠ []) (hl : last ≠ []) {pa pb : List P} (hpa : a.richLine = .ok pa)
    (hpb : b.richLine = .ok pb) (hmeet : pa.getLast? = pb.head?) :
    ∃ s p w x ra rb, squash pa = ra ++ x :: w.reverse ∧ squash pb = w ++ x :: rb ∧
      (∀ y, ra.getLast? = some y → rb.head? ≠ some y) ∧
      trimMerge G turn next a b = .ok s ∧ s.invalid = false ∧ s.isConnected = true ∧
      (∃ m, Good E m s) ∧
      (Connected s.lines ∧ ∀ l ∈ s.lines, l ≠ [] ∨ l ∈ a.lines ∨ l ∈ b.lines) ∧ s.richLine = .ok p ∧
      (ra = [] → rb = [] → squash p = []) ∧ (Turns G turn ra x rb → squash p = ra ++ rb) ∧
      (¬ Turns G turn ra x rb → ra ≠ [] ∨ rb ≠ [] → squash p = ra ++ x :: rb) := by
  have epa : pa = joined (nonempty a.lines) := by
    have := richLine_connected hca; rw [hpa] at this; exact (Outcome.ok.inj this)
  have epb : pb = joined (nonempty b.lines) := by
    have := richLine_connected hcb; rw [hpb] at this; exact (Outcome.ok.inj this)
  have fa : squash a.lines.flatten = squash pa := by rw [epa, squash_flatten hca]
  have fb : squash b.lines.flatten = squash pb := by rw [epb, squash_flatten hcb]
  have hpta := positions_pts a.lines 0
  have hptb := positions_pts b.lines 0
  have hmeet' : a.lines.flatten.getLast? = b.lines.flatten.head? := by
    rw [← squash_getLast?, fa, squash_getLast?, hmeet, ← squash_head?, ← fb, squash_head?]
  have hane : a.lines.flatten ≠ [] := by
    obtain ⟨q, first', rfl⟩ := List.exists_cons_of_ne_nil hf
    obtain ⟨u, hu⟩ : ∃ u, a.lines = (q :: first') :: u := ⟨_, List.eq_cons_of_mem_head? hfirst⟩
    rw [hu]; simp
  obtain ⟨c, hcl⟩ : ∃ c, a.lines.flatten.getLast? = some c := ⟨_, List.getLast?_eq_getLast_of_ne_nil hane⟩
  have hbh : b.lines.flatten.head? = some c := by rw [← hmeet', hcl]
  obtain ⟨a0, as, hA⟩ : ∃ a0 as, (positions 0 a.lines).reverse = a0 :: as := by
    cases h : (positions 0 a.lines).reverse with
    | nil =>
      rw [List.reverse_eq_nil_iff] at h
      rw [h] at hpta
      exact absurd hpta.symm hane
    | cons u v => exact ⟨u, v, rfl⟩
  obtain ⟨b0, bs, hB⟩ : ∃ b0 bs, positions 0 b.lines = b0 :: bs := by
    cases h : positions 0 b.lines with
    | nil => rw [h] at hptb; rw [← hptb] at hbh; simp [pts] at hbh
    | cons u v => exact ⟨u, v, rfl⟩
  have ha0 : a0.2 = c := by
    have h1 : (pts (positions 0 a.lines)).getLast? = some c := by rw [hpta, hcl]
    rw [pts, List.getLast?_map, ← List.head?_reverse, hA] at h1
    simpa using h1
  have hb0 : b0.2 = c := by
    have h1 : (pts (positions 0 b.lines)).head? = some c := by rw [hptb, hbh]
    rw [pts, hB] at h1
    simpa using h1
  have hlenA : as.length < (positions 0 a.lines).length := by
    have := congrArg List.length hA
    rw [List.length_reverse] at this
    rw [this]; simp
  obtain ⟨as1, as2, bs1, bs2, ps, pe, x, hwalk, hsa, hsb, hsq, hp1, hp2, hp3⟩ :=
    walk_spec (positions 0 a.lines).length as bs a0 b0 hlenA (ha0.trans hb0.symm)
  -- the search
  have hfind : findReturn a b = .parts ps pe := by
    unfold findReturn
    have h1 : a.refs.isEmpty = false := by
      cases h : a.refs with
      | nil => simp [Route.lines, h] at hfirst
      | cons u v => rfl
    have h2 : b.refs.isEmpty = false := by
      cases h : b.refs with
      | nil => simp [Route.lines, h] at hlast
      | cons u v => rfl
    have h3 : a.attachesTo b = true := by
      unfold Route.attachesTo
      rw [hia, hib]
      simp only [Bool.or_self, Bool.false_eq_true, if_false]
      cases hu : (a.refs.getLast?).bind (fun r => r.line.getLast?) with
      | none => rfl
      | some p =>
        cases hv : (b.refs.head?).bind (fun r => r.line.head?) with
        | none => rfl
        | some q =>
          simp only [decide_eq_true_eq]
          obtain ⟨r1, hr1, hr1p⟩ := Option.bind_eq_some_iff.1 hu
          obtain ⟨r2, hr2, hr2q⟩ := Option.bind_eq_some_iff.1 hv
          obtain ⟨us, hus⟩ := List.getLast?_eq_some_iff.1 hr1
          obtain ⟨vs, hvs⟩ : ∃ vs, b.refs = r2 :: vs := ⟨_, List.eq_cons_of_mem_head? hr2⟩
          have e1 : a.lines.flatten.getLast? = some p := by
            rw [Route.lines, hus, List.map_append, List.flatten_append, List.getLast?_append]
            simp [hr1p]
          have e2 : b.lines.flatten.head? = some q := by
            rw [Route.lines, hvs, List.map_cons, List.flatten_cons, List.head?_append, hr2q]
            rfl
          rw [hmeet', e2] at e1
          exact (Option.some.inj e1).symm
    have h4 : (positions 0 a.lines).isEmpty = false := by
      cases h : positions 0 a.lines with
      | nil => rw [h] at hA; simp at hA
      | cons u v => rfl
    have h5 : (positions 0 b.lines).isEmpty = false := by rw [hB]; rfl
    rw [h1, h2, h3, h4, h5]
    simp only [Bool.not_true, Bool.or_self, Bool.false_eq_true, if_false]
    rw [hA, hB, hwalk]
  -- the positions
  have hposA : positions 0 a.lines = as2.reverse ++ (ps, x) :: as1.reverse := by
    have := congrArg List.reverse hA
    rw [List.reverse_reverse, hsa] at this
    rw [this]; simp
  obtain ⟨i, j, la, hq, hla, hlaj, hpre, hpost⟩ := positions_spec a.lines 0 _ _ _ _ hposA
  obtain ⟨k, l, lb, hq', hlb, hlbl, hpre', hpost'⟩ := positions_spec b.lines 0 _ _ _ _ (hB.trans hsb)
  have hj : j < la.length := by
    by_contra h
    rw [List.getElem?_eq_none (by omega)] at hlaj
    simp at hlaj
  have hlj : l < lb.length := by
    by_contra h
    rw [List.getElem?_eq_none (by omega)] at hlbl
    simp at hlbl
  have htake : la.take (j + 1) = la.take j ++ [x] := by rw [List.take_add_one, hlaj]; rfl
  have hdrop : lb.drop l = x :: lb.drop (l + 1) := by
    have : x = lb[l] := by
      rw [List.getElem?_eq_getElem hlj] at hlbl
      exact (Option.some.inj hlbl).symm
    rw [this]
    exact List.drop_eq_getElem_cons hlj
  have hbfl : b.lines.flatten = pts bs1 ++ x :: pts bs2 := by
    rw [← hptb, hB, hsb]; simp [pts]
  have hafl : a.lines.flatten = pts as2.reverse ++ x :: (pts as1).reverse := by
    rw [← hpta, hposA]; simp [pts]
  -- the retraced way
  obtain ⟨w, hw⟩ : ∃ w, squash (pts as1 ++ [x]) = w ++ [x] := by
    have := squash_getLast? (pts as1 ++ [x])
    rw [List.getLast?_append] at this
    simp only [List.getLast?_singleton, Option.some_or] at this
    exact List.getLast?_eq_some_iff.1 this
  obtain ⟨ra, hra⟩ : ∃ ra, squash (pts as2.reverse ++ [x]) = ra ++ [x] := by
    have := squash_getLast? (pts as2.reverse ++ [x])
    rw [List.getLast?_append] at this
    simp only [List.getLast?_singleton, Option.some_or] at this
    exact List.getLast?_eq_some_iff.1 this
  obtain ⟨rb, hrb⟩ : ∃ rb, squash (x :: pts bs2) = x :: rb := ⟨_, List.eq_cons_of_mem_head? (squash_head? (x :: pts bs2))⟩
  have hwayA : squash pa = ra ++ x :: w.reverse := by
    rw [← fa, hafl, squash_split, hra]
    have : squash (x :: (pts as1).reverse) = x :: w.reverse := by
      rw [show x :: (pts as1).reverse = (pts as1 ++ [x]).reverse by simp, squash_reverse, hw]
      simp
    rw [this]; simp
  have hwayB : squash pb = w ++ x :: rb := by
    rw [← fb, hbfl, squash_split, ← hsq, hw, hrb]; simp
  have hraLast : ra.getLast? = as2.head?.map Prod.snd := by
    cases as2 with
    | nil =>
      have : ra = [] := by
        have h1 : squash [x] = ra ++ [x] := by simpa [pts] using hra
        have := congrArg List.length h1
        simpa [squash] using this
      rw [this]; rfl
    | cons y as2 =>
      have hyx : y.2 ≠ x := hp1 y rfl
      have h1 : pts (y :: as2).reverse ++ [x] = pts as2.reverse ++ y.2 :: [x] := by simp [pts]
      rw [h1, squash_split, squash_cons2, if_neg hyx] at hra
      have h2 : squash (pts as2.reverse ++ [y.2]) = ra := by
        have h3 : (y.2 :: squash [x]).tail = [x] := rfl
        rw [h3] at hra
        exact List.append_cancel_right hra
      rw [← h2, squash_getLast?, List.getLast?_append]
      rfl
  have hrbHead : as2 ≠ [] → squash (pts bs2) = rb := by
    intro h
    have := squash_ne x (pts bs2) (by
      intro y hy
      rw [pts, List.head?_map] at hy
      obtain ⟨z, hz, rfl⟩ := Option.map_eq_some_iff.1 hy
      exact hp2 h z hz)
    rw [hrb] at this
    injection this with _ h2
    exact h2.symm
  have hpart : ∀ y, ra.getLast? = some y → rb.head? ≠ some y := by
    intro y hy hz
    rw [hraLast] at hy
    obtain ⟨y', hy', rfl⟩ := Option.map_eq_some_iff.1 hy
    have hne : as2 ≠ [] := by rintro rfl; simp at hy'
    rw [← hrbHead hne, squash_head?, pts, List.head?_map] at hz
    obtain ⟨z', hz', hzy⟩ := Option.map_eq_some_iff.1 hz
    exact hp3 y' z' hy' hz' hzy.symm
  -- both parts
  obtain ⟨a', na, ga1, ga2, ga3, ga4, ga7, ga5, ga6⟩ := prefix_part (hga.mono hn) hca hEa hfirst hf hla hj
  obtain ⟨b', nb, gb1, gb2, gb3, gb4, gb7, gb5, gb6⟩ := suffix_part (hgb.mono (Nat.le_trans hn (Nat.le_max_left next a'.top))) hcb
    hEb hlast hl hlb hlj
  have hgA : Good E na a' := ga2
  have hgB : Good E nb b' := gb2
  have hlastLen : ((b.refs.getLast?).map (fun r => r.line.length)).getD 0 = last.length := by
    rw [Route.lines, List.getLast?_map] at hlast
    obtain ⟨r, hr, hrl⟩ := Option.map_eq_some_iff.1 hlast
    rw [hr, ← hrl]; rfl
  have heq : trimMerge G turn next a b =
      mergeTwo (max next (max a'.top b'.top)) (trimTurn G turn (max next (max a'.top b'.top)) a' b') := by
    unfold trimMerge
    rw [hfind, hq, hq']
    simp only [Nat.zero_add]
    rw [ga1, hlastLen]
    simp only [Outcome.bind_ok]
    rw [gb1]
    rfl
  rw [hdrop, List.cons_append, ← hpost', hrb] at gb5
  have hparts : ∀ l : List P, l ∈ a'.lines ∨ l ∈ b'.lines → l ≠ [] ∨ l ∈ a.lines ∨ l ∈ b.lines := by
    intro l h
    rcases h with h | h
    · rcases ga7 l h with h | h
      · exact .inl h
      · exact .inr (.inl h)
    · rcases gb7 l h with h | h
      · exact .inl h
      · exact .inr (.inr h)
  by_cases hcase : as2 = []
  · -- the first route is retraced completely
    subst hcase
    have hra0 : ra = [] := by
      rw [List.head?_nil, Option.map_none, List.getLast?_eq_none_iff] at hraLast
      exact hraLast
    have hpre0 : (a.lines.take i).flatten ++ la.take j = [] := by rw [← hpre]; rfl
    rw [List.append_eq_nil_iff] at hpre0
    have hj0 : j = 0 := by
      rcases List.take_eq_nil_iff.1 hpre0.2 with h | h
      · exact h
      · rw [h] at hj; simp at hj
    have hi0 : i = 0 := by
      by_contra h
      obtain ⟨u, hu⟩ : ∃ u, a.lines = first :: u := ⟨_, List.eq_cons_of_mem_head? hfirst⟩
      obtain ⟨i', rfl⟩ := Nat.exists_eq_succ_of_ne_zero h
      rw [hu] at hpre0
      simp [hf] at hpre0
    have hlines := ga5 hi0 hj0
    have hrefs : a'.refs = [] := by simpa [Route.lines] using hlines
    have hturn : trimTurn G turn (max next (max a'.top b'.top)) a' b' = (a', b') := by
      unfold trimTurn
      rw [hrefs]
      rfl
    obtain ⟨s, m, h1, h2, h3, h4, h7, h8, p, h5, h6⟩ := mergeTwo_spec (next := max next (max a'.top b'.top)) hgA hgB ga3 gb3
      (by rw [hlines]; exact gb4)
    rw [hlines, List.nil_append, squash_flatten gb4, gb5, moving_moving] at h6
    refine ⟨s, p, w, x, ra, rb, hwayA, hwayB, hpart, by rw [heq, hturn, h1], h3, h4, ⟨m, h2⟩, ⟨h7, fun l hl => hparts l (h8 l hl)⟩, h5, ?_, ?_, ?_⟩
    · intro _ hrb0
      rw [h6, hrb0]; rfl
    · rintro ⟨y, z, hy, _⟩
      rw [hra0] at hy
      simp at hy
    · intro _ hor
      have hrb0 : rb ≠ [] := by
        rcases hor with h | h
        · exact absurd hra0 h
        · exact h
      rw [h6, hra0, moving, if_neg (by simpa using hrb0)]
      rfl
  · obtain ⟨y, as2', rfl⟩ := List.exists_cons_of_ne_nil hcase
    have hyx : y.2 ≠ x := hp1 y rfl
    have hrane : ra ≠ [] := by
      rintro rfl
      simp at hraLast
    have hyl : (pts (y :: as2').reverse).getLast? = some y.2 := by simp [pts]
    have hj0 : j ≠ 0 := by
      rintro rfl
      rw [hpre, List.take_zero, List.append_nil] at hyl
      have hcp : Connected (a.lines.take i ++ [la]) := by
        have h1 : Connected (a.lines.take (i + 1)) := by
          have hca' := hca
          unfold Connected at hca' ⊢
          rw [← List.take_append_drop (i + 1) a.lines, nonempty_append] at hca'
          exact hca'.left_of_append
        rw [List.take_add_one, hla] at h1
        exact h1
      have hhead : la.head? = some x := by
        rw [List.head?_eq_getElem?]
        exact hlaj
      exact hyx (flatten_last hcp hhead _ hyl)
    have hlast2 : (la.take j).getLast? = some y.2 := by
      rw [hpre, List.getLast?_append] at hyl
      cases hh : (la.take j).getLast? with
      | none =>
        rw [List.getLast?_eq_none_iff, List.take_eq_nil_iff] at hh
        rcases hh with h | h
        · exact absurd h hj0
        · rw [h] at hj; simp at hj
      | some q => rw [hh] at hyl; simpa using hyl
    obtain ⟨prefl, hprefl⟩ := List.getLast?_eq_some_iff.1 hlast2
    have htake2 : la.take (j + 1) = prefl ++ [y.2, x] := by rw [htake, hprefl]; simp
    obtain ⟨g1, g2⟩ := ga6 ⟨(y.2, x), by rw [htake2]; exact List.mem_of_getLast? (segs_last prefl y.2 x), hyx⟩
    rw [htake, ← List.append_assoc, ← hpre, hra] at g2
    rw [htake2] at g1
    have hAne : (ra ++ [x]).tail ≠ [] := by
      obtain ⟨u, v, rfl⟩ := List.exists_cons_of_ne_nil hrane
      simp
    by_cases hcase2 : bs2 = []
    · -- the second route is travelled back completely
      subst hcase2
      have hrb0 : rb = [] := by
        have := hrbHead (by simp)
        simpa [pts, squash] using this.symm
      subst hrb0
      have hb0 : joined (nonempty b'.lines) = [] := by
        have h1 : squash (joined (nonempty b'.lines)) = [] := by rw [gb5]; rfl
        have := squash_head? (joined (nonempty b'.lines))
        rw [h1] at this
        exact List.head?_eq_none_iff.1 this.symm
      have hbn : nonempty b'.lines = [] := by
        cases hh : nonempty b'.lines with
        | nil => rfl
        | cons u v =>
          rw [hh] at hb0
          exact absurd hb0 (joined_ne v (nonempty_all b'.lines u (by rw [hh]; simp)))
      have hturn : trimTurn G turn (max next (max a'.top b'.top)) a' b' = (a', b') := by
        unfold trimTurn
        cases hr1 : a'.refs.getLast? with
        | none => rfl
        | some r1 =>
          cases hr2 : b'.refs.head? with
          | none => rfl
          | some r2 =>
            have : r2.line = [] := by
              by_contra hne
              have hmem : r2.line ∈ nonempty b'.lines :=
                List.mem_filter.2 ⟨List.mem_map_of_mem (List.mem_of_head? hr2), by simpa using hne⟩
              rw [hbn] at hmem
              simp at hmem
            simp only
            rw [if_neg]
            unfold reverseAttaches
            rw [this]
            simp [segs]
      have hcab : Connected (a'.lines ++ b'.lines) := by
        unfold Connected
        rw [nonempty_append, hbn, List.append_nil]
        exact ga4
      obtain ⟨s, m, h1, h2, h3, h4, h7, h8, p, h5, h6⟩ := mergeTwo_spec (next := max next (max a'.top b'.top)) hgA hgB ga3 gb3 hcab
      rw [squash_flatten hcab, nonempty_append, hbn, List.append_nil, g2, moving, if_neg hAne] at h6
      refine ⟨s, p, w, x, ra, [], hwayA, hwayB, hpart, by rw [heq, hturn, h1], h3, h4, ⟨m, h2⟩, ⟨h7, fun l hl => hparts l (h8 l hl)⟩, h5, ?_, ?_, ?_⟩
      · intro h; exact absurd h hrane
      · rintro ⟨_, z, _, hz, _⟩
        simp at hz
      · intro _ _; exact h6
    · obtain ⟨z, bs2', rfl⟩ := List.exists_cons_of_ne_nil hcase2
      have hzx : z.2 ≠ x := hp2 (by simp) z rfl
      have hyz : y.2 ≠ z.2 := hp3 y z rfl rfl
      have hrbz : rb.head? = some z.2 := by
        rw [← hrbHead (by simp), squash_head?]; rfl
      have hrbne : rb ≠ [] := by rintro rfl; simp at hrbz
      have hnext : lb.drop (l + 1) ≠ [] := by
        intro h
        rw [h, List.nil_append] at hpost'
        have hcp : Connected (lb :: b.lines.drop (k + 1)) := by
          have h1 : Connected (b.lines.drop k) := by
            have hcb' := hcb
            unfold Connected at hcb' ⊢
            rw [← List.take_append_drop k b.lines, nonempty_append] at hcb'
            exact hcb'.right_of_append
          have hk : k < b.lines.length := by
            by_contra h
            rw [List.getElem?_eq_none (by omega)] at hlb
            simp at hlb
          have : lb = b.lines[k] := by
            rw [List.getElem?_eq_getElem hk] at hlb
            exact (Option.some.inj hlb).symm
          rw [this, ← List.drop_eq_getElem_cons hk]
          exact h1
        have hl2 : lb.getLast? = some x := by
          have h3 : lb.getLast? = (lb.drop l).getLast? := by rw [List.getLast?_drop, if_neg (by omega)]
          rw [h3, hdrop, h]; rfl
        exact hzx (flatten_first hcp hl2 z.2 (by rw [← hpost']; rfl))
      obtain ⟨z', postl, hpostl⟩ := List.exists_cons_of_ne_nil hnext
      have hz' : z' = z.2 := by
        rw [hpostl] at hpost'
        have := congrArg List.head? hpost'
        simpa [pts] using this.symm
      rw [hz'] at hpostl
      have hdrop2 : lb.drop l = x :: z.2 :: postl := by rw [hdrop, hpostl]
      have g3 := gb6 ⟨(x, z.2), by rw [hdrop2]; simp [segs], fun h => hzx h.symm⟩
      rw [hdrop2] at g3
      have hmv : moving (x :: rb) = x :: rb := by rw [moving, if_neg (by simpa using hrbne)]
      rw [hmv] at gb5
      -- the lines at the joint
      obtain ⟨r1, hr1, hr1l⟩ : ∃ r1, a'.refs.getLast? = some r1 ∧ r1.line = prefl ++ [y.2, x] := by
        have h := g1
        rw [Route.lines, List.getLast?_map] at h
        exact Option.map_eq_some_iff.1 h
      obtain ⟨r2, hr2, hr2l⟩ : ∃ r2, b'.refs.head? = some r2 ∧ r2.line = x :: z.2 :: postl := by
        have h := g3
        rw [Route.lines, List.head?_map] at h
        exact Option.map_eq_some_iff.1 h
      have hrev : reverseAttaches G turn r1.line r2.line = turn (G.dir (G.az y.2 x) (G.az x z.2)) := by
        unfold reverseAttaches
        have hs2 : (segs (x :: z.2 :: postl)).head? = some (x, z.2) := by simp [segs]
        rw [hr1l, hr2l, segs_last, hs2]
        have : x ≠ z.2 := fun h => hzx h.symm
        simp [hyx, this]
      have hTurns : Turns G turn ra x rb ↔ turn (G.dir (G.az y.2 x) (G.az x z.2)) = true := by
        constructor
        · rintro ⟨y1, z1, e1, e2, e3⟩
          rw [hraLast] at e1
          rw [hrbz] at e2
          simp only [List.head?_cons, Option.map_some, Option.some.injEq] at e1 e2
          rw [e1, e2]; exact e3
        · intro h
          exact ⟨y.2, z.2, by rw [hraLast]; rfl, hrbz, h⟩
      by_cases ht : turn (G.dir (G.az y.2 x) (G.az x z.2)) = true
      · -- the way turns back
        have hturn : trimTurn G turn (max next (max a'.top b'.top)) a' b' =
            join G turn false (max next (max a'.top b'.top)) a' b' := by
          unfold trimTurn
          rw [hr1, hr2]
          simp only
          rw [hrev, if_pos ht]
        have hjoinable : Joinable a' b' := ⟨ga3, gb3, _, _, g1, g3, by simp, by simp⟩
        obtain ⟨c1, c2⟩ := join_connects G turn false (max next (max a'.top b'.top)) hjoinable (by simp) ga4 gb4
        obtain ⟨l1, l2, i1, i2⟩ := join_cases G turn false (max next (max a'.top b'.top)) a' b' prefl postl y.2 x x z.2 g1 g3
          ga3 gb3 (by simp)
        obtain ⟨j1, j2⟩ := join_good G turn false (k := max next (max a'.top b'.top)) (hgA.top (m := max a'.top b'.top) (by omega))
          (hgB.top (by omega)) (by omega)
        generalize hJ : join G turn false (max next (max a'.top b'.top)) a' b' = ab at *
        obtain ⟨a'', b''⟩ := ab
        simp only at c1 c2 i1 i2 j1 j2 l1 l2
        obtain ⟨s, m, h1, h2, h3, h4, h7, h8, p, h5, h6⟩ := mergeTwo_spec (next := max next (max a'.top b'.top)) j1 j2 i1 i2 c1
        rw [squash_flatten c1, c2] at h6
        obtain ⟨U, hU⟩ : ∃ U, joined (nonempty a'.lines) = U ++ [y.2, x] := by
          have hn := nonempty_last g1 (by simp)
          have hs : (segs (joined (nonempty a'.lines))).getLast? = some (y.2, x) := by
            rw [segs_joined _ (nonempty_all _) ga4]
            obtain ⟨us, hus⟩ := List.getLast?_eq_some_iff.1 hn
            rw [hus, List.flatMap_append, List.getLast?_append]
            simp [segs_last]
          have hlen : 2 ≤ (joined (nonempty a'.lines)).length := by
            have := List.mem_of_getLast? hs
            generalize joined (nonempty a'.lines) = J at *
            match J, this with
            | [], h => simp [segs] at h
            | [q], h => simp [segs] at h
            | q1 :: q2 :: J, _ => simp
          obtain ⟨U, u1, u2, hU⟩ := two_last hlen
          rw [hU, segs_last] at hs
          simp only [Option.some.injEq, Prod.mk.injEq] at hs
          exact ⟨U, by rw [hU, hs.1, hs.2]⟩
        obtain ⟨V, hV⟩ : ∃ V, joined (nonempty b'.lines) = x :: z.2 :: V := by
          have hn := nonempty_head g3 (by simp)
          obtain ⟨vs, hvs⟩ : ∃ vs, nonempty b'.lines = (x :: z.2 :: postl) :: vs := ⟨_, List.eq_cons_of_mem_head? hn⟩
          rw [hvs]
          exact ⟨_, rfl⟩
        rw [hU] at g2
        rw [hV] at gb5
        have hra' : squash (U ++ [y.2]) = ra := by
          rw [squash_split, squash_cons2, if_neg hyx] at g2
          have h3 : (y.2 :: squash [x]).tail = [x] := rfl
          rw [h3] at g2
          exact List.append_cancel_right g2
        have hrb' : squash (z.2 :: V) = rb := by
          rw [squash_cons2, if_neg (fun h => hzx h.symm)] at gb5
          injection gb5
        have hall : squash (U ++ [y.2] ++ z.2 :: V) = ra ++ rb := by
          rw [squash_split, List.append_assoc, List.singleton_append, squash_split U y.2 [z.2], squash_cons2, if_neg hyz, hra',
            hrb']
          obtain ⟨rb', rfl⟩ : ∃ rb', rb = z.2 :: rb' := ⟨_, List.eq_cons_of_mem_head? hrbz⟩
          simp [squash]
        have hdl : (joined (nonempty a'.lines)).dropLast = U ++ [y.2] := by
          rw [hU, show U ++ [y.2, x] = (U ++ [y.2]) ++ [x] by simp, List.dropLast_concat]
        have hjl : ∀ l ∈ s.lines, l ≠ [] ∨ l ∈ a.lines ∨ l ∈ b.lines := by
          intro l hl
          rcases h8 l hl with h | h
          · rw [l1] at h
            rcases List.mem_append.1 h with h | h
            · exact hparts l (.inl ((List.dropLast_subset _) h))
            · rw [List.mem_singleton.1 h]; exact .inl (by simp)
          · rw [l2] at h
            rcases List.mem_append.1 h with h | h
            · split_ifs at h
              · simp at h
              · rw [List.mem_singleton.1 h]; exact .inl (by simp)
            · exact hparts l (.inr (List.mem_of_mem_tail h))
        have hne2 : (ra ++ rb).tail ≠ [] := by
          obtain ⟨u, v, rfl⟩ := List.exists_cons_of_ne_nil hrane
          simp [hrbne]
        rw [hdl, hV, List.tail_cons, hall, moving, if_neg hne2] at h6
        refine ⟨s, p, w, x, ra, rb, hwayA, hwayB, hpart, by rw [heq, hturn, h1], h3, h4, ⟨m, h2⟩, ⟨h7, hjl⟩, h5, ?_, ?_, ?_⟩
        · intro h; exact absurd h hrane
        · intro _; exact h6
        · intro h; exact absurd (hTurns.2 ht) h
      · have hturn : trimTurn G turn (max next (max a'.top b'.top)) a' b' = (a', b') := by
          unfold trimTurn
          rw [hr1, hr2]
          simp only
          rw [hrev, if_neg ht]
        have hcab : Connected (a'.lines ++ b'.lines) := by
          unfold Connected
          rw [nonempty_append]
          refine chain_join ga4 gb4 ?_
          intro u v hu hv
          rw [nonempty_last g1 (by simp)] at hu
          rw [nonempty_head g3 (by simp)] at hv
          rw [← Option.some.inj hu, ← Option.some.inj hv]
          simp [Meets]
        obtain ⟨s, m, h1, h2, h3, h4, h7, h8, p, h5, h6⟩ := mergeTwo_spec (next := max next (max a'.top b'.top)) hgA hgB ga3 gb3 hcab
        rw [List.flatten_append, squash_meet ((squash_flatten ga4).trans g2) ((squash_flatten gb4).trans gb5)] at h6
        have hne2 : (ra ++ x :: rb).tail ≠ [] := by
          obtain ⟨u, v, rfl⟩ := List.exists_cons_of_ne_nil hrane
          simp
        rw [moving, if_neg hne2] at h6
        refine ⟨s, p, w, x, ra, rb, hwayA, hwayB, hpart, by rw [heq, hturn, h1], h3, h4, ⟨m, h2⟩, ⟨h7, fun l hl => hparts l (h8 l hl)⟩, h5, ?_, ?_, ?_⟩
        · intro h; exact absurd h hrane
        · intro h; exact absurd (hTurns.1 h) ht
        · intro _ _; exact h6

/-- **C66.**  Two connected routes, the second beginning where the first ends, are merged without the part that is travelled
forth and back: with `w` the longest way that the second route retraces, the points of the result are those of the first up
to the point `x` where the second leaves it, and those of the second from there on.  If the way turns back at `x` (beyond the
given angle), `x` is left out as well.  The result is valid and connected, its references are alive.
Missing: routes whose first (second: last) line is empty, see `trim_merge_empty_line_fails`; only one point is left out if
the way turns back, see `trim_merge_turns_fails`. -/
theorem trim_merge_partial (G : Geo P R A) (turn : A → Bool) {ext : Ref P → Prop} {n next : Nat} {a b : Route P}
    (hga : Good ext n a) (hgb : Good ext n b) (hn : n ≤ next) (hia : a.invalid = false) (hib : b.invalid = false)
    (hca : Connected a.lines) (hcb : Connected b.lines) {first last : List P} (hfirst : a.lines.head? = some first)
    (hlast : b.lines.getLast? = some last) (hf : first ≠ []) (hl : last ≠ []) {pa pb : List P} (hpa : a.richLine = .ok pa)
    (hpb : b.richLine = .ok pb) (hmeet : pa.getLast? = pb.head?) :
    ∃ s p w x ra rb, squash pa = ra ++ x :: w.reverse ∧ squash pb = w ++ x :: rb ∧
      (∀ y, ra.getLast? = some y → rb.head? ≠ some y) ∧
      trimMerge G turn next a b = .ok s ∧ s.invalid = false ∧ s.isConnected = true ∧
      (∃ m, Good (fun y => ext y ∨ y ∈ a.own ∨ y ∈ b.own) m s) ∧
      (Connected s.lines ∧ ∀ l ∈ s.lines, l ≠ [] ∨ l ∈ a.lines ∨ l ∈ b.lines) ∧ s.richLine = .ok p ∧
      (ra = [] → rb = [] → squash p = []) ∧ (Turns G turn ra x rb → squash p = ra ++ rb) ∧
      (¬ Turns G turn ra x rb → ra ≠ [] ∨ rb ≠ [] → squash p = ra ++ x :: rb) :=
  trim_merge_gen G turn hga hgb hn hia hib
    (fun _ _ _ h x hx => (subRoute_alive hga h x hx).imp_right (fun h => h.elim .inl (fun h => .inr (.inl h))))
    (fun _ _ _ h x hx => (subRoute_alive hgb h x hx).imp_right (fun h => h.elim .inl (fun h => .inr (.inr h))))
    hca hcb hfirst hlast hf hl hpa hpb hmeet

/-- Points on a straight road; the azimuth tells the direction of travel. -/
def roadGeo : Geo Int Int Int where
  zeroR := 0
  addR := (· + ·)
  zeroA := 0
  addA := (· + ·)
  abs := fun a => if a < 0 then -a else a
  len := fun a b => if a < b then b - a else a - b
  az := fun a b => if a < b then 90 else 270
  dir := fun a b => if a = b then 0 else 180

def roadExt (x : Ref Int) : Prop := x ∈ [⟨0, [0, 4]⟩, ⟨1, [4, 7]⟩, ⟨2, [7, 4]⟩, ⟨3, [4, 9]⟩, ⟨4, [7, 4, 4, 0]⟩, ⟨5, [0, -3]⟩]

/-- Forth to 7, back to 4, then on to 9: the way to 7 is left out, nothing turns back. -/
def roadA : Route Int := ⟨[⟨10, [-2, 0]⟩], [⟨10, [-2, 0]⟩, ⟨0, [0, 4]⟩, ⟨1, [4, 7]⟩], false⟩
def roadB : Route Int := Route.ofRefs [⟨2, [7, 4]⟩, ⟨3, [4, 9]⟩]

example : Good roadExt 20 roadA ∧ Good roadExt 20 roadB ∧ Connected roadA.lines ∧ Connected roadB.lines ∧
    roadA.richLine = .ok [-2, 0, 4, 7] ∧ roadB.richLine = .ok [7, 4, 9] ∧
    ∃ s, trimMerge roadGeo (fun d => d == 180) 20 roadA roadB = .ok s ∧ s.richLine = .ok [-2, 0, 4, 9] := by
  refine ⟨⟨by decide, by decide, ?_, by decide⟩, ⟨by decide, by decide, ?_, by decide⟩, ?_, ?_, by decide, by decide, _, rfl,
    by decide⟩
  · simp [roadA, roadExt]
  · simp [roadB, Route.ofRefs, roadExt]
  · simp [Connected, nonempty, roadA, Route.lines, Meets]
  · simp [Connected, nonempty, roadB, Route.ofRefs, Route.lines, Meets]

/-- The whole first route is retraced. -/
example : ∃ s, trimMerge roadGeo (fun d => d == 180) 20 (Route.ofRefs [⟨0, [0, 4]⟩, ⟨1, [4, 7]⟩])
    (Route.ofRefs [⟨4, [7, 4, 4, 0]⟩, ⟨5, [0, -3]⟩]) = .ok s ∧ s.richLine = .ok [0, -3] := ⟨_, rfl, by decide⟩

/-- **C66, refused.**  Nothing is merged, the result is invalid, if a route is invalid or has no lines, or if the second does
not begin where the first ends. -/
theorem trim_merge_refuses (G : Geo P R A) (turn : A → Bool) (next : Nat) (a b : Route P)
    (h : a.invalid = true ∨ b.invalid = true ∨ a.lines = [] ∨ b.lines = [] ∨
      ∃ la lb p q, a.lines.getLast? = some la ∧ b.lines.head? = some lb ∧ la.getLast? = some p ∧ lb.head? = some q ∧ p ≠ q) :
    trimMerge G turn next a b = .ok Route.bad := by
  have hfind : findReturn a b = .nothing := by
    unfold findReturn
    rw [if_pos]
    rcases h with h | h | h | h | ⟨la, lb, p, q, h1, h2, h3, h4, h5⟩
    · simp [Route.attachesTo, h]
    · simp [Route.attachesTo, h]
    · have : a.refs = [] := by simpa [Route.lines] using h
      simp [this]
    · have : b.refs = [] := by simpa [Route.lines] using h
      simp [this]
    · rw [Route.lines, List.getLast?_map] at h1
      rw [Route.lines, List.head?_map] at h2
      obtain ⟨r1, hr1, rfl⟩ := Option.map_eq_some_iff.1 h1
      obtain ⟨r2, hr2, rfl⟩ := Option.map_eq_some_iff.1 h2
      have : a.attachesTo b = false := by
        unfold Route.attachesTo
        rw [hr1, hr2]
        simp [h3, h4, h5]
      simp [this]
  rw [trimMerge, hfind]

example : trimMerge roadGeo (fun d => d == 180) 20 roadA (Route.ofRefs [⟨3, [4, 9]⟩]) = .ok Route.bad :=
  trim_merge_refuses _ _ _ _ _ (.inr (.inr (.inr (.inr ⟨[4, 7], [4, 9], 7, 4, by decide, by decide, rfl, rfl, by decide⟩))))

/-- **C66, not everything is trimmed.**  A way back that does not meet the points of the way forth is shortened by one point
only: from -10 over 0 to 10 and back to -5 gives -10, 0, -5, which turns back at 0. -/
theorem trim_merge_turns_fails : ∃ a b : Route Int, Connected a.lines ∧ Connected b.lines ∧
    a.richLine = .ok [-10, 0, 10] ∧ b.richLine = .ok [10, -5] ∧
    (∃ s, trimMerge roadGeo (fun d => d == 180) 20 a b = .ok s ∧ s.richLine = .ok [-10, 0, -5]) ∧
    Turns roadGeo (fun d => d == 180) [-10] 0 [-5] := by
  refine ⟨Route.ofRefs [⟨0, [-10, 0, 10]⟩], Route.ofRefs [⟨1, [10, -5]⟩], ?_, ?_, by decide, by decide, ⟨_, rfl, by decide⟩,
    -10, -5, rfl, rfl, by decide⟩
  · simp [Connected, nonempty, Route.ofRefs, Route.lines]
  · simp [Connected, nonempty, Route.ofRefs, Route.lines]

/-- **C66, empty lines.**  Valid, connected routes that meet are not merged but throw if the first begins with an empty
line, or if the second ends with one. -/
theorem trim_merge_empty_line_fails : ∃ a b c d : Route Int, Connected a.lines ∧ Connected b.lines ∧ Connected c.lines ∧
    a.richLine = .ok [0, 4] ∧ b.richLine = .ok [4, 0] ∧ c.richLine = .ok [0, 4] ∧ d.richLine = .ok [4, 0] ∧
    trimMerge roadGeo (fun d => d == 180) 20 a b = .throws ∧ trimMerge roadGeo (fun d => d == 180) 20 c d = .throws := by
  refine ⟨Route.ofRefs [⟨0, []⟩, ⟨1, [0, 4]⟩], Route.ofRefs [⟨2, [4, 0]⟩], Route.ofRefs [⟨1, [0, 4]⟩],
    Route.ofRefs [⟨2, [4, 0]⟩, ⟨0, []⟩], ?_, ?_, ?_, by decide, by decide, by decide, by decide, by decide, by decide⟩ <;>
  simp [Connected, nonempty, Route.ofRefs, Route.lines]

end MM.Route
