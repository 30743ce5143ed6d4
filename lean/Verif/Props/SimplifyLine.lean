import Verif.Model.SimplifyLine
import Mathlib.Data.List.Basic
import Mathlib.Tactic.SplitIfs
import Mathlib.Data.Nat.Basic
import Mathlib.Data.Int.Order.Basic

/-!
# C30: simplification of lines

`Within near l out`: `out` results from `l` by dropping points; first and last point and the order are kept, and each dropped
point is near the segment of the two kept points around it.
-/

set_option autoImplicit false
set_option linter.unusedSectionVars false

namespace MM.Simplify

open MM.Line

variable {P R A : Type} [LinearOrder R] [Zero R]

/-- The kept points span segments that the dropped points are near to. -/
inductive Within (near : P → P → P → Prop) : List P → List P → Prop where
  | single (p : P) : Within near [p] [p]
  | step (p : P) (mid : List P) (q : P) (rest out : List P) : (∀ x ∈ mid, near x p q) →
      Within near (q :: rest) (q :: out) → Within near (p :: (mid ++ q :: rest)) (p :: q :: out)

theorem Within.head {near : P → P → P → Prop} {l out : List P} (h : Within near l out) : out.head? = l.head? := by
  cases h <;> rfl

theorem Within.last {near : P → P → P → Prop} {l out : List P} (h : Within near l out) : out.getLast? = l.getLast? := by
  induction h with
  | single p => rfl
  | step p mid q rest out _ _ ih =>
    rw [List.getLast?_cons_cons, ih]
    rw [show p :: (mid ++ q :: rest) = (p :: mid) ++ (q :: rest) by simp, List.getLast?_append]
    cases hq : (q :: rest).getLast? with
    | none => simp at hq
    | some x => rfl

theorem Within.sublist {near : P → P → P → Prop} {l out : List P} (h : Within near l out) : out.Sublist l := by
  induction h with
  | single p => exact List.Sublist.refl _
  | step p mid q rest out _ _ ih => exact (ih.trans (List.sublist_append_right mid _)).cons_cons p

theorem Within.append {near : P → P → P → Prop} {l out : List P} (h : Within near l out) {x : P} {bs bs' : List P}
    (hx : l.getLast? = some x) (h2 : Within near (x :: bs) (x :: bs')) : Within near (l ++ bs) (out ++ bs') := by
  induction h with
  | single p =>
    simp only [List.getLast?_singleton, Option.some.injEq] at hx
    subst hx
    exact h2
  | step p mid q rest out hm _ ih =>
    have hq : (q :: rest).getLast? = some x := by
      rw [show p :: (mid ++ q :: rest) = (p :: mid) ++ (q :: rest) by simp, List.getLast?_append] at hx
      cases hq : (q :: rest).getLast? with
      | none => simp at hq
      | some y => rw [hq] at hx; simpa using hx
    have := Within.step p mid q (rest ++ bs) (out ++ bs') hm (ih hq)
    simpa using this

/-! ### The farthest point -/

theorem scan_spec (dist : P → P → P → R) (a b : P) (ps : List P) : ∀ (i : Nat) (best : Nat × R),
    (scan dist a b ps i best = best ∧ ∀ p ∈ ps, dist p a b ≤ best.2) ∨
    (best.2 < (scan dist a b ps i best).2 ∧ i ≤ (scan dist a b ps i best).1 ∧
      (scan dist a b ps i best).1 < i + ps.length ∧ ∀ p ∈ ps, dist p a b ≤ (scan dist a b ps i best).2) := by
  induction ps with
  | nil => intro i best; left; simp [scan]
  | cons p ps ih =>
    intro i best
    rw [scan]
    split_ifs with h
    · right
      rcases ih (i + 1) (i, dist p a b) with ⟨h1, h2⟩ | ⟨h1, h2, h3, h4⟩
      · rw [h1]
        refine ⟨h, Nat.le_refl _, by simp, ?_⟩
        intro x hx
        rcases List.mem_cons.1 hx with rfl | hx
        · exact le_refl _
        · exact h2 x hx
      · refine ⟨lt_trans h h1, by omega, by simp only [List.length_cons]; omega, ?_⟩
        intro x hx
        rcases List.mem_cons.1 hx with rfl | hx
        · exact le_of_lt h1
        · exact h4 x hx
    · rcases ih (i + 1) best with ⟨h1, h2⟩ | ⟨h1, h2, h3, h4⟩
      · left
        rw [h1]
        refine ⟨rfl, ?_⟩
        intro x hx
        rcases List.mem_cons.1 hx with rfl | hx
        · exact not_lt.1 h
        · exact h2 x hx
      · right
        refine ⟨h1, by omega, by simp only [List.length_cons]; omega, ?_⟩
        intro x hx
        rcases List.mem_cons.1 hx with rfl | hx
        · exact le_of_lt (lt_of_le_of_lt (not_lt.1 h) h1)
        · exact h4 x hx

/-! ### Erasing -/

theorem eraseAll_nil (l : List P) : eraseAll l [] = l := rfl

theorem eraseAll_cons (l : List P) (i : Nat) (is : List Nat) : eraseAll l (i :: is) = eraseAt (eraseAll l is) i := by
  unfold eraseAll
  rw [List.reverse_cons, List.foldl_append]
  rfl

theorem eraseAll_append (l : List P) (is js : List Nat) : eraseAll l (is ++ js) = eraseAll (eraseAll l js) is := by
  unfold eraseAll
  rw [List.reverse_append, List.foldl_append]

theorem eraseAll_range (mid : List P) : ∀ pre post : List P,
    eraseAll (pre ++ mid ++ post) (List.range' pre.length mid.length) = pre ++ post := by
  induction mid with
  | nil => intro pre post; simp [eraseAll]
  | cons m mid ih =>
    intro pre post
    rw [List.length_cons, List.range'_succ, eraseAll_cons]
    have := ih (pre ++ [m]) post
    rw [List.length_append, List.length_singleton] at this
    rw [show pre ++ m :: mid ++ post = pre ++ [m] ++ mid ++ post by simp, this]
    unfold eraseAt
    rw [if_pos (by simp)]
    rw [show pre ++ [m] ++ post = pre ++ (m :: post) by simp, List.eraseIdx_append_of_length_le (Nat.le_refl _)]
    simp

/-! ### Parts of a line -/

/-- The points `lo .. hi - 1`. -/
def slice (line : List P) (lo hi : Nat) : List P := (line.drop lo).take (hi - lo)

theorem slice_split (line : List P) {lo m hi : Nat} (h1 : lo ≤ m) (h2 : m ≤ hi) :
    slice line lo hi = slice line lo m ++ slice line m hi := by
  unfold slice
  rw [show hi - lo = (m - lo) + (hi - m) by omega, List.take_add, List.drop_drop]
  rw [show lo + (m - lo) = m by omega]

theorem slice_one (line : List P) {m hi : Nat} {x : P} (hx : line[m]? = some x) (h : m < hi) :
    slice line m hi = x :: slice line (m + 1) hi := by
  unfold slice
  obtain ⟨hlt, rfl⟩ := List.getElem?_eq_some_iff.1 hx
  rw [List.drop_eq_getElem_cons hlt, show hi - m = (hi - (m + 1)) + 1 by omega, List.take_succ_cons]

theorem slice_snoc (line : List P) {lo m : Nat} {x : P} (hx : line[m]? = some x) (h : lo ≤ m) :
    slice line lo (m + 1) = slice line lo m ++ [x] := by
  rw [slice_split line h (Nat.le_succ m), slice_one line hx (Nat.lt_succ_self m)]
  simp [slice]

theorem slice_all (line : List P) : slice line 0 line.length = line := by simp [slice]

theorem slice_length (line : List P) {lo hi : Nat} (h1 : lo ≤ hi) (h2 : hi ≤ line.length) :
    (slice line lo hi).length = hi - lo := by
  unfold slice
  rw [List.length_take, List.length_drop]
  omega

/-! ### Indices -/

/-- What removing `is` does to the part `lo .. hi - 1` of the line, whatever is before and after. -/
structure Removes (near : P → P → P → Prop) (line : List P) (lo hi : Nat) (is : List Nat) (out : List P) : Prop where
  within : Within near (slice line lo hi) out
  inner : ∀ i ∈ is, lo < i ∧ i + 1 < hi
  erase : ∀ pre post : List P, pre.length = lo → eraseAll (pre ++ slice line lo hi ++ post) is = pre ++ out ++ post

theorem Removes.join {near : P → P → P → Prop} {line : List P} {lo m hi : Nat} {is js : List Nat} {o1 o2 : List P} {x : P}
    (hx : line[m]? = some x) (h1 : lo ≤ m) (h2 : m < hi) (r1 : Removes near line lo (m + 1) is o1)
    (r2 : Removes near line m hi js o2) : ∃ out, Removes near line lo hi (is ++ js) out := by
  have hh := r2.within.head
  rw [slice_one line hx h2, List.head?_cons] at hh
  obtain ⟨bs, rfl⟩ : ∃ bs, o2 = x :: bs := by
    cases o2 with
    | nil => simp at hh
    | cons y bs => simp at hh; exact ⟨bs, by rw [hh]⟩
  refine ⟨o1 ++ bs, ?_, ?_, ?_⟩
  · have hw := r2.within
    rw [slice_one line hx h2] at hw
    rw [slice_split line (Nat.le_succ_of_le h1) h2]
    refine r1.within.append ?_ hw
    rw [slice_snoc line hx h1]
    simp
  · intro i hi'
    rcases List.mem_append.1 hi' with h | h
    · have := r1.inner i h; omega
    · have := r2.inner i h; omega
  · intro pre post hpre
    rw [eraseAll_append, slice_split line h1 (Nat.le_of_lt h2), ← List.append_assoc]
    by_cases hlen : m ≤ line.length
    · rw [r2.erase (pre ++ slice line lo m) post (by rw [List.length_append, slice_length line h1 hlen, hpre]; omega)]
      have := r1.erase pre (bs ++ post) hpre
      rw [slice_snoc line hx h1] at this
      simpa using this
    · have := (List.getElem?_eq_some_iff.1 hx).1
      omega

theorem indices_removes (dist : P → P → P → R) {tol : R} (ht : 0 ≤ tol) (line : List P) (n : Nat) : ∀ lo hi : Nat,
    hi - lo ≤ n → lo + 2 ≤ hi → hi ≤ line.length → ∃ is out, (∀ fuel, n ≤ fuel → simplifyIndices dist tol line fuel lo hi = .ok is) ∧
      Removes (fun x p q => dist x p q ≤ tol) line lo hi is out := by
  induction n with
  | zero => intro lo hi h1 h2 _; omega
  | succ n ih =>
    intro lo hi hn h2 hlen
    have hlo : lo < line.length := by omega
    have hhi : hi - 1 < line.length := by omega
    have e1 : line[lo]? = some line[lo] := List.getElem?_eq_getElem hlo
    have e2 : line[hi - 1]? = some line[hi - 1] := List.getElem?_eq_getElem hhi
    have hguard : ¬ (hi ≤ lo ∨ hi - lo < 2 ∨ line.length ≤ lo ∨ line.length < hi) := by omega
    have hmid : (line.drop (lo + 1)).take (hi - lo - 2) = slice line (lo + 1) (hi - 1) := by
      unfold slice
      rw [show hi - lo - 2 = hi - 1 - (lo + 1) by omega]
    have hmlen : (slice line (lo + 1) (hi - 1)).length = hi - lo - 2 := by
      rw [slice_length line (by omega) (by omega)]
      omega
    have hs := scan_spec dist line[lo] line[hi - 1] (slice line (lo + 1) (hi - 1)) (lo + 1) (0, 0)
    have hf : farthest dist line lo hi line[lo] line[hi - 1] =
        scan dist line[lo] line[hi - 1] (slice line (lo + 1) (hi - 1)) (lo + 1) (0, 0) := by
      rw [farthest, hmid]
    rw [← hf] at hs
    generalize hfar : farthest dist line lo hi line[lo] line[hi - 1] = far at hs
    have hone : slice line lo hi = line[lo] :: (slice line (lo + 1) (hi - 1) ++ [line[hi - 1]]) := by
      rw [slice_one line e1 (by omega), slice_split line (m := hi - 1) (by omega) (by omega),
        slice_one line e2 (by omega), show hi - 1 + 1 = hi by omega]
      simp [slice]
    by_cases hgt : tol < far.2
    · rcases hs with ⟨h3, _⟩ | ⟨h3, h4, h5, _⟩
      · rw [h3] at hgt
        exact absurd ht (not_le.2 hgt)
      · rw [hmlen] at h5
        have hmx : line[far.1]? = some (line[far.1]'(by omega)) := List.getElem?_eq_getElem (by omega)
        obtain ⟨is, o1, hi1, r1⟩ := ih lo (far.1 + 1) (by omega) (by omega) (by omega)
        obtain ⟨js, o2, hi2, r2⟩ := ih far.1 hi (by omega) (by omega) hlen
        obtain ⟨out, r⟩ := Removes.join hmx (by omega) (by omega) r1 r2
        refine ⟨is ++ js, out, ?_, r⟩
        intro fuel hfuel
        obtain ⟨f, rfl⟩ : ∃ f, fuel = f + 1 := ⟨fuel - 1, by omega⟩
        rw [simplifyIndices, if_neg hguard, e1, e2]
        simp only [hfar]
        rw [if_pos hgt, hi1 f (by omega), Outcome.bind_ok, hi2 f (by omega), Outcome.bind_ok]
    · refine ⟨List.range' (lo + 1) (hi - lo - 2), [line[lo], line[hi - 1]], ?_, ?_, ?_, ?_⟩
      · intro fuel hfuel
        obtain ⟨f, rfl⟩ : ∃ f, fuel = f + 1 := ⟨fuel - 1, by omega⟩
        rw [simplifyIndices, if_neg hguard, e1, e2]
        simp only [hfar]
        rw [if_neg hgt]
      · rw [hone]
        refine Within.step _ _ _ [] [] ?_ (Within.single _)
        intro x hx
        rcases hs with ⟨h3, h4⟩ | ⟨_, _, _, h4⟩
        · exact le_trans (h4 x hx) ht
        · exact le_trans (h4 x hx) (not_lt.1 hgt)
      · intro i hi'
        rw [List.mem_range'_1] at hi'
        omega
      · intro pre post hpre
        rw [hone]
        have := eraseAll_range (slice line (lo + 1) (hi - 1)) (pre ++ [line[lo]]) ([line[hi - 1]] ++ post)
        rw [hmlen, List.length_append, List.length_singleton, hpre] at this
        simpa using this

theorem indices_short (dist : P → P → P → R) (tol : R) (line : List P) {lo hi : Nat} (h : hi < lo + 2) (fuel : Nat) :
    simplifyIndices dist tol line (fuel + 1) lo hi = .ok [] := by
  rw [simplifyIndices, if_pos]
  omega

theorem removes_single (near : P → P → P → Prop) (line : List P) {lo : Nat} {x : P} (hx : line[lo]? = some x) :
    Removes near line lo (lo + 1) [] [x] := by
  have : slice line lo (lo + 1) = [x] := by rw [slice_one line hx (Nat.lt_succ_self lo)]; simp [slice]
  refine ⟨?_, by simp, ?_⟩
  · rw [this]; exact Within.single x
  · intro pre post _; rw [this]; rfl

theorem indices_total (dist : P → P → P → R) {tol : R} (ht : 0 ≤ tol) (line : List P) {lo hi : Nat} (h1 : lo < hi)
    (h2 : hi ≤ line.length) : ∃ is out, (∀ fuel, hi - lo ≤ fuel → simplifyIndices dist tol line fuel lo hi = .ok is) ∧
      Removes (fun x p q => dist x p q ≤ tol) line lo hi is out := by
  by_cases h : lo + 2 ≤ hi
  · exact indices_removes dist ht line (hi - lo) lo hi (Nat.le_refl _) h h2
  · have hhi : hi = lo + 1 := by omega
    subst hhi
    refine ⟨[], _, ?_, removes_single _ line (List.getElem?_eq_getElem (by omega : lo < line.length))⟩
    intro fuel hf
    obtain ⟨f, rfl⟩ : ∃ f, fuel = f + 1 := ⟨fuel - 1, by omega⟩
    exact indices_short dist tol line (by omega) f

/-- **C30, part of a line.**  For a tolerance that is not negative, simplifying the points `lo .. hi - 1` terminates (with a
recursion depth of at most `hi - lo`), keeps all points outside, and replaces the part by one that it is within tolerance of. -/
theorem simplify_part (dist : P → P → P → R) {tol : R} (ht : 0 ≤ tol) (pre mid post : List P) (hm : mid ≠ []) :
    ∃ out, Within (fun x p q => dist x p q ≤ tol) mid out ∧ ∀ fuel, mid.length ≤ fuel →
      simplify dist tol fuel (pre ++ mid ++ post) pre.length (pre.length + mid.length) = .ok (pre ++ out ++ post) := by
  have hpos : 0 < mid.length := List.length_pos_iff.2 hm
  obtain ⟨is, out, h1, r⟩ := indices_total dist ht (pre ++ mid ++ post) (lo := pre.length) (hi := pre.length + mid.length)
    (by omega) (by simp)
  have hs : slice (pre ++ mid ++ post) pre.length (pre.length + mid.length) = mid := by
    unfold slice
    simp
  refine ⟨out, by have := r.within; rwa [hs] at this, ?_⟩
  intro fuel hf
  have := r.erase pre post rfl
  rw [hs] at this
  rw [simplify, h1 fuel (by omega), Outcome.map_ok, this]

/-! ### Splitting at reversals -/

theorem splitLoop_removes [DecidableEq P] (dist : P → P → P → R) {tol : R} (ht : 0 ≤ tol) (G : Geo P R A) (turn : A → Bool)
    (line : List P) (is : List Nat) : ∀ index : Nat, is.Pairwise (· < ·) → (∀ i ∈ is, index ≤ i ∧ i + 2 < line.length) →
    index < line.length → ∃ js out, (∀ fuel, line.length ≤ fuel → splitLoop dist tol G turn line fuel is index = .ok js) ∧
      Removes (fun x p q => dist x p q ≤ tol) line index line.length js out ∧
      ∀ i ∈ is, reversalAt G turn line i = true → i + 1 ∉ js := by
  induction is with
  | nil =>
    intro index _ _ hi
    obtain ⟨js, out, h1, r⟩ := indices_total dist ht line hi (Nat.le_refl _)
    refine ⟨js, out, ?_, r, by simp⟩
    intro fuel hf
    rw [splitLoop]
    exact h1 fuel (by omega)
  | cons i is ih =>
    intro index hp hb hi
    have hii := hb i List.mem_cons_self
    rw [List.pairwise_cons] at hp
    by_cases hrev : reversalAt G turn line i = true
    · obtain ⟨l, o1, h1, r1⟩ := indices_total dist ht line (lo := index) (hi := i + 2) (by omega) (by omega)
      obtain ⟨r, o2, h2, r2, h3⟩ := ih (i + 1) hp.2 (fun j hj => by
        have := hp.1 j hj; have := hb j (List.mem_cons_of_mem _ hj); omega) (by omega)
      have hx : line[i + 1]? = some (line[i + 1]'(by omega)) := List.getElem?_eq_getElem (by omega)
      obtain ⟨out, ro⟩ := Removes.join hx (by omega) (by omega) r1 r2
      refine ⟨l ++ r, out, ?_, ro, ?_⟩
      · intro fuel hf
        rw [splitLoop, if_pos hrev, h1 fuel (by omega), Outcome.bind_ok, h2 fuel hf, Outcome.bind_ok]
      · intro j hj hjr hmem
        rcases List.mem_cons.1 hj with rfl | hj
        · rcases List.mem_append.1 hmem with h | h
          · have := r1.inner _ h; omega
          · have := r2.inner _ h; omega
        · rcases List.mem_append.1 hmem with h | h
          · have := r1.inner _ h
            have := hp.1 j hj
            omega
          · exact h3 j hj hjr h
    · obtain ⟨js, out, h1, r, h3⟩ := ih index hp.2 (fun j hj => hb j (List.mem_cons_of_mem _ hj)) hi
      refine ⟨js, out, ?_, r, ?_⟩
      · intro fuel hf
        rw [splitLoop, if_neg hrev]
        exact h1 fuel hf
      · intro j hj hjr
        rcases List.mem_cons.1 hj with rfl | hj
        · exact absurd hjr hrev
        · exact h3 j hj hjr

/-- **C30.**  For a tolerance that is not negative, simplifying a line terminates (recursion depth at most the number of
points), keeps first and last point and the order, and every dropped point is within tolerance of the segment of the kept
points around it. -/
theorem simplify_within_partial [DecidableEq P] (dist : P → P → P → R) {tol : R} (ht : 0 ≤ tol) (G : Geo P R A) (turn : A → Bool)
    (retain : Bool) {line : List P} (hl : line ≠ []) :
    ∃ out, Within (fun x p q => dist x p q ≤ tol) line out ∧
      ∀ fuel, line.length ≤ fuel → simplifyRichLine dist tol G turn fuel retain line = .ok out := by
  have hpos : 0 < line.length := List.length_pos_iff.2 hl
  have key : ∃ js out, (∀ fuel, line.length ≤ fuel → richLineIndices dist tol G turn fuel retain line = .ok js) ∧
      Removes (fun x p q => dist x p q ≤ tol) line 0 line.length js out := by
    cases retain with
    | false =>
      obtain ⟨js, out, h1, r⟩ := indices_total dist ht line hpos (Nat.le_refl _)
      exact ⟨js, out, fun fuel hf => by simpa [richLineIndices] using h1 fuel (by omega), r⟩
    | true =>
      obtain ⟨js, out, h1, r, _⟩ := splitLoop_removes dist ht G turn line (List.range (line.length - 2)) 0
        List.pairwise_lt_range (fun i hi => by rw [List.mem_range] at hi; omega) hpos
      exact ⟨js, out, fun fuel hf => by simpa [richLineIndices] using h1 fuel hf, r⟩
  obtain ⟨js, out, h1, r⟩ := key
  have hw := r.within
  have he := r.erase [] [] rfl
  rw [slice_all] at hw he
  refine ⟨out, hw, ?_⟩
  intro fuel hf
  rw [simplifyRichLine, h1 fuel hf, Outcome.map_ok]
  simpa using he

/-- **C30, reversals.**  With `retain_reversals` no point at which the line turns back is removed. -/
theorem simplify_keeps_reversals [DecidableEq P] (dist : P → P → P → R) {tol : R} (ht : 0 ≤ tol) (G : Geo P R A) (turn : A → Bool)
    {line : List P} {fuel : Nat} (hf : line.length ≤ fuel) {js : List Nat}
    (h : richLineIndices dist tol G turn fuel true line = .ok js) (i : Nat) {x y z : P} (hx : line[i]? = some x)
    (hy : line[i + 1]? = some y) (hz : line[i + 2]? = some z) (hxy : x ≠ y) (hyz : y ≠ z)
    (hturn : turn (G.dir (G.az x y) (G.az y z)) = true) : i + 1 ∉ js := by
  have hlen : i + 2 < line.length := (List.getElem?_eq_some_iff.1 hz).1
  obtain ⟨js', out, h1, _, h3⟩ := splitLoop_removes dist ht G turn line (List.range (line.length - 2)) 0
    List.pairwise_lt_range (fun i hi => by rw [List.mem_range] at hi; omega) (by omega)
  have h1' := h1 fuel hf
  rw [richLineIndices, if_pos rfl, h1'] at h
  injection h with h
  subst h
  refine h3 i (List.mem_range.2 (by omega)) ?_
  have hseg : ∀ (j : Nat) (p q : P), line[j]? = some p → line[j + 1]? = some q → (segs line)[j]? = some (p, q) := by
    intro j p q hp hq
    unfold segs
    rw [List.getElem?_zip_eq_some]
    exact ⟨hp, by rw [List.getElem?_tail]; exact hq⟩
  unfold reversalAt
  rw [hseg i x y hx hy, hseg (i + 1) y z hy hz]
  simp [reverses, hxy, hyz, hturn]

/-- The empty line stays empty. -/
theorem simplify_empty [DecidableEq P] (dist : P → P → P → R) (tol : R) (G : Geo P R A) (turn : A → Bool) (retain : Bool) (fuel : Nat) :
    simplifyRichLine dist tol G turn (fuel + 1) retain ([] : List P) = .ok [] := by
  cases retain <;> simp [simplifyRichLine, richLineIndices, splitLoop, simplifyIndices, eraseAll]

/-- **C30 fails** for a negative tolerance: the recursion does not end. -/
theorem negative_tolerance_fails (dist : P → P → P → R) {tol : R} (ht : tol < 0) (line : List P) (fuel : Nat) : ∀ hi : Nat,
    2 ≤ hi → hi ≤ line.length → simplifyIndices dist tol line fuel 0 hi = .ub := by
  induction fuel with
  | zero => intro hi _ _; rfl
  | succ fuel ih =>
    intro hi h2 hlen
    have e1 : line[0]? = some (line[0]'(by omega)) := List.getElem?_eq_getElem (by omega)
    have e2 : line[hi - 1]? = some (line[hi - 1]'(by omega)) := List.getElem?_eq_getElem (by omega)
    rw [simplifyIndices, if_neg (by omega), e1, e2]
    simp only
    generalize hfar : farthest dist line 0 hi _ _ = far
    have hs := scan_spec dist (line[0]'(by omega)) (line[hi - 1]'(by omega)) ((line.drop (0 + 1)).take (hi - 0 - 2)) (0 + 1) (0, 0)
    unfold farthest at hfar
    rw [hfar] at hs
    have hlt : tol < far.2 := by
      rcases hs with ⟨h, _⟩ | ⟨h, _⟩
      · rw [h]; exact ht
      · exact lt_trans ht h
    rw [if_pos hlt]
    rcases hs with ⟨h, _⟩ | ⟨_, h3, h4, _⟩
    · rw [h]
      cases fuel with
      | zero => rfl
      | succ f =>
        rw [indices_short dist tol line (by simp) f, Outcome.bind_ok, ih hi h2 hlen]
        rfl
    · rw [List.length_take, List.length_drop] at h4
      rw [ih (far.1 + 1) (by omega) (by omega)]
      rfl

/-! ### Segments -/

theorem segs_cons_cons (p q : P) (l : List P) : segs (p :: q :: l) = (p, q) :: segs (q :: l) := by simp [segs]

theorem segs_append {l : List P} {x : P} (hx : l.getLast? = some x) (bs : List P) :
    segs (l ++ bs) = segs l ++ segs (x :: bs) := by
  induction l with
  | nil => simp at hx
  | cons p l ih =>
    cases l with
    | nil =>
      simp only [List.getLast?_singleton, Option.some.injEq] at hx
      subst hx
      simp [segs]
    | cons q l =>
      rw [List.getLast?_cons_cons] at hx
      rw [List.cons_append, List.cons_append, segs_cons_cons, segs_cons_cons, List.cons_append]
      rw [← ih hx]
      rfl

theorem segs_length (l : List P) : (segs l).length = l.length - 1 := by simp [segs]

theorem segs_fst (l : List P) : (segs l).map Prod.fst = l.dropLast := by
  induction l with
  | nil => rfl
  | cons p l ih =>
    cases l with
    | nil => rfl
    | cons q l => rw [segs_cons_cons, List.map_cons, ih]; rfl

theorem segs_split (l : List P) (m : Nat) (h : m < l.length) :
    (segs l).take m = segs (l.take (m + 1)) ∧ (segs l).drop m = segs (l.drop m) := by
  have hx : (l.take (m + 1)).getLast? = some l[m] := by
    rw [List.getLast?_take]
    simp [h]
  have hd : l.drop m = l[m] :: l.drop (m + 1) := List.drop_eq_getElem_cons h
  have hs := segs_append hx (l.drop (m + 1))
  rw [List.take_append_drop, ← hd] at hs
  have hlen : (segs (l.take (m + 1))).length = m := by rw [segs_length, List.length_take]; omega
  constructor
  · rw [hs, List.take_append_of_le_length (by omega), List.take_of_length_le (by omega)]
  · rw [hs, List.drop_append_of_le_length (by omega), List.drop_of_length_le (by omega), List.nil_append]

theorem segments_within (dist : P → P → P → R) {tol : R} (ht : 0 ≤ tol) (n : Nat) : ∀ pts : List P, 2 ≤ pts.length →
    pts.length ≤ n + 1 → ∃ out, Within (fun x p q => dist x p q ≤ tol) pts out ∧
      ∀ fuel, n ≤ fuel → simplifySegments dist tol fuel (segs pts) = .ok (segs out) := by
  induction n with
  | zero => intro pts h1 h2; omega
  | succ n ih =>
    intro pts h2 hn
    by_cases h3 : pts.length < 3
    · obtain ⟨p, q, rfl⟩ : ∃ p q, pts = [p, q] := by
        match pts, h2, h3 with
        | [p, q], _, _ => exact ⟨p, q, rfl⟩
      refine ⟨[p, q], Within.step p [] q [] [] (by simp) (Within.single q), ?_⟩
      intro fuel hf
      obtain ⟨f, rfl⟩ : ∃ f, fuel = f + 1 := ⟨fuel - 1, by omega⟩
      rw [simplifySegments, if_pos (by rw [segs_length]; simp)]
    · have hslen := segs_length pts
      -- the points
      obtain ⟨a, rest, rfl⟩ := List.exists_cons_of_ne_nil (by rintro rfl; simp at h2 : pts ≠ [])
      have hrne : rest ≠ [] := by rintro rfl; simp at h2
      obtain ⟨mid, b, rfl⟩ : ∃ mid b, rest = mid ++ [b] := ⟨rest.dropLast, rest.getLast hrne, (List.dropLast_append_getLast hrne).symm⟩
      have hmid : mid ≠ [] := by rintro rfl; simp at h3
      obtain ⟨m0, ms, hm0⟩ := List.exists_cons_of_ne_nil hmid
      have hhead : (segs (a :: (mid ++ [b]))).head? = some (a, m0) := by rw [hm0]; simp [segs]
      obtain ⟨c, hlast⟩ : ∃ c, (segs (a :: (mid ++ [b]))).getLast? = some (c, b) := by
        have hx : (a :: mid).getLast? = some ((a :: mid).getLast (by simp)) := List.getLast?_eq_getLast_of_ne_nil _
        have := segs_append hx [b]
        rw [List.cons_append] at this
        exact ⟨(a :: mid).getLast (by simp), by rw [this, List.getLast?_append]; simp [segs]⟩
      have htail : (segs (a :: (mid ++ [b]))).tail.map Prod.fst = mid := by
        rw [List.map_tail, segs_fst]
        rw [show a :: (mid ++ [b]) = (a :: mid) ++ [b] by simp, List.dropLast_concat, List.tail_cons]
      have hs := scan_spec dist a b mid 1 (0, 0)
      generalize hfar : scan dist a b mid 1 (0, 0) = far at hs
      have hlen : (a :: (mid ++ [b])).length = mid.length + 2 := by simp
      by_cases hgt : tol < far.2
      · rcases hs with ⟨h4, _⟩ | ⟨h4, h5, h6, _⟩
        · rw [h4] at hgt
          exact absurd ht (not_le.2 hgt)
        · have hk : far.1 < (a :: (mid ++ [b])).length := by omega
          obtain ⟨et, ed⟩ := segs_split (a :: (mid ++ [b])) far.1 hk
          obtain ⟨o1, w1, g1⟩ := ih ((a :: (mid ++ [b])).take (far.1 + 1)) (by rw [List.length_take]; omega)
            (by rw [List.length_take]; omega)
          obtain ⟨o2, w2, g2⟩ := ih ((a :: (mid ++ [b])).drop far.1) (by rw [List.length_drop]; omega)
            (by rw [List.length_drop]; omega)
          have hx : ((a :: (mid ++ [b])).take (far.1 + 1)).getLast? = some (a :: (mid ++ [b]))[far.1] := by
            rw [List.getLast?_take]
            simp only [Nat.add_one_ne_zero, if_false, Nat.add_sub_cancel]
            rw [List.getElem?_eq_getElem hk]
            rfl
          have hd : (a :: (mid ++ [b])).drop far.1 = (a :: (mid ++ [b]))[far.1] :: (a :: (mid ++ [b])).drop (far.1 + 1) :=
            List.drop_eq_getElem_cons hk
          have hh := w2.head
          rw [hd, List.head?_cons] at hh
          obtain ⟨bs, rfl⟩ : ∃ bs, o2 = (a :: (mid ++ [b]))[far.1] :: bs := by
            cases o2 with
            | nil => simp at hh
            | cons y bs => simp only [List.head?_cons, Option.some.injEq] at hh; exact ⟨bs, by rw [hh]⟩
          rw [hd] at w2
          refine ⟨o1 ++ bs, ?_, ?_⟩
          · have := w1.append hx w2
            rwa [List.take_append_drop] at this
          · intro fuel hf
            obtain ⟨f, rfl⟩ : ∃ f, fuel = f + 1 := ⟨fuel - 1, by omega⟩
            rw [simplifySegments, if_neg (by omega), hhead, hlast]
            simp only [htail, hfar]
            rw [if_pos hgt, if_neg (by omega), et, g1 f (by omega), Outcome.bind_ok, ed, g2 f (by omega), Outcome.bind_ok]
            rw [segs_append (w1.last.trans hx) bs]
      · refine ⟨[a, b], ?_, ?_⟩
        · refine Within.step a mid b [] [] ?_ (Within.single b)
          intro x hx
          rcases hs with ⟨h4, h5⟩ | ⟨_, _, _, h5⟩
          · exact le_trans (h5 x hx) ht
          · exact le_trans (h5 x hx) (not_lt.1 hgt)
        · intro fuel hf
          obtain ⟨f, rfl⟩ : ∃ f, fuel = f + 1 := ⟨fuel - 1, by omega⟩
          rw [simplifySegments, if_neg (by omega), hhead, hlast]
          simp only [htail, hfar]
          rw [if_neg hgt]
          simp [segs]

theorem segmentsLoop_within [DecidableEq P] (dist : P → P → P → R) {tol : R} (ht : 0 ≤ tol) (G : Geo P R A) (turn : A → Bool)
    (rest : List (P × P)) : ∀ (part : List (P × P)) (s : P × P) (pts : List P), part ++ s :: rest = segs pts →
    ∃ out, Within (fun x p q => dist x p q ≤ tol) pts out ∧
      ∀ fuel, pts.length ≤ fuel → segmentsLoop dist tol G turn fuel part s rest = .ok (segs out) := by
  induction rest with
  | nil =>
    intro part s pts h
    have hl := congrArg List.length h
    rw [segs_length] at hl
    simp only [List.length_append, List.length_singleton] at hl
    obtain ⟨out, w, g⟩ := segments_within dist ht pts.length pts (by omega) (by omega)
    refine ⟨out, w, ?_⟩
    intro fuel hf
    rw [segmentsLoop, h]
    exact g fuel hf
  | cons t rest ih =>
    intro part s pts h
    have hl := congrArg List.length h
    rw [segs_length] at hl
    simp only [List.length_append, List.length_cons] at hl
    by_cases hrev : reverses G turn s t = true
    · have hk : part.length + 1 < pts.length := by omega
      obtain ⟨et, ed⟩ := segs_split pts (part.length + 1) hk
      rw [← h] at et ed
      have e1 : part ++ [s] = segs (pts.take (part.length + 1 + 1)) := by
        rw [← et, show part ++ s :: t :: rest = (part ++ [s]) ++ (t :: rest) by simp,
          List.take_append_of_le_length (by simp), List.take_of_length_le (by simp)]
      have e2 : t :: rest = segs (pts.drop (part.length + 1)) := by
        rw [← ed, show part ++ s :: t :: rest = (part ++ [s]) ++ (t :: rest) by simp,
          List.drop_append_of_le_length (by simp), List.drop_of_length_le (by simp), List.nil_append]
      obtain ⟨o1, w1, g1⟩ := segments_within dist ht pts.length (pts.take (part.length + 1 + 1))
        (by rw [List.length_take]; omega) (by rw [List.length_take]; omega)
      obtain ⟨o2, w2, g2⟩ := ih [] t (pts.drop (part.length + 1)) (by rw [List.nil_append, e2])
      have hx : (pts.take (part.length + 1 + 1)).getLast? = some pts[part.length + 1] := by
        rw [List.getLast?_take]
        simp [hk]
      have hd : pts.drop (part.length + 1) = pts[part.length + 1] :: pts.drop (part.length + 1 + 1) :=
        List.drop_eq_getElem_cons hk
      have hh := w2.head
      rw [hd, List.head?_cons] at hh
      obtain ⟨bs, rfl⟩ : ∃ bs, o2 = pts[part.length + 1] :: bs := by
        cases o2 with
        | nil => simp at hh
        | cons y bs => simp only [List.head?_cons, Option.some.injEq] at hh; exact ⟨bs, by rw [hh]⟩
      rw [hd] at w2
      refine ⟨o1 ++ bs, ?_, ?_⟩
      · have := w1.append hx w2
        rwa [List.take_append_drop] at this
      · intro fuel hf
        rw [segmentsLoop, if_pos hrev, e1, g1 fuel (by omega), Outcome.bind_ok,
          g2 fuel (by rw [List.length_drop]; omega), Outcome.bind_ok, segs_append (w1.last.trans hx) bs]
    · obtain ⟨out, w, g⟩ := ih (part ++ [s]) t pts (by rw [← h]; simp)
      refine ⟨out, w, ?_⟩
      intro fuel hf
      rw [segmentsLoop, if_neg hrev]
      exact g fuel hf

/-- **C30, segments.**  Simplifying the segments of a line gives the segments of a line that it is within tolerance of. -/
theorem segments_within_partial [DecidableEq P] (dist : P → P → P → R) {tol : R} (ht : 0 ≤ tol) (G : Geo P R A) (turn : A → Bool)
    (retain : Bool) {pts : List P} (h2 : 2 ≤ pts.length) :
    ∃ out, Within (fun x p q => dist x p q ≤ tol) pts out ∧
      ∀ fuel, pts.length ≤ fuel → simplifyRichSegments dist tol G turn fuel retain (segs pts) = .ok (segs out) := by
  cases retain with
  | false =>
    obtain ⟨out, w, g⟩ := segments_within dist ht pts.length pts h2 (by omega)
    exact ⟨out, w, fun fuel hf => by simpa [simplifyRichSegments] using g fuel hf⟩
  | true =>
    obtain ⟨s, rest, hs⟩ := List.exists_cons_of_ne_nil (by
      intro h; have := congrArg List.length h; rw [segs_length] at this; simp at this; omega : segs pts ≠ [])
    obtain ⟨out, w, g⟩ := segmentsLoop_within dist ht G turn rest [] s pts (by rw [List.nil_append, hs])
    refine ⟨out, w, ?_⟩
    intro fuel hf
    rw [hs]
    exact g fuel hf

/-! ### Examples -/

/-- Twice the area of the triangle: zero for points on the line through `a` and `b`. -/
def area (p a b : Int × Int) : Nat := ((b.1 - a.1) * (p.2 - a.2) - (b.2 - a.2) * (p.1 - a.1)).natAbs

/-- Azimuth as direction vector, change of direction as opposite vectors. -/
def vecGeo : Geo (Int × Int) Nat (Int × Int) :=
  { len := fun p q => (p.1 - q.1).natAbs + (p.2 - q.2).natAbs
    az := fun p q => (q.1 - p.1, q.2 - p.2)
    dir := fun u v => (u.1 * v.1 + u.2 * v.2, u.1 * v.2 - u.2 * v.1)
    abs := id, zeroR := 0, addR := (· + ·), zeroA := (0, 0), addA := fun u v => (u.1 + v.1, u.2 + v.2) }

/-- A corner stays, a point on the straight goes; the reversal stays only if wanted. -/
example : simplifyRichLine area 1 vecGeo (fun d => decide (d.1 < 0) && decide (d.2 = 0)) 10 false [(0, 0), (5, 0), (10, 0), (10, 9)] =
      .ok [(0, 0), (10, 0), (10, 9)] ∧
    simplifyRichLine area 1 vecGeo (fun d => decide (d.1 < 0) && decide (d.2 = 0)) 10 false [(0, 0), (10, 0), (5, 0), (8, 0)] =
      .ok [(0, 0), (8, 0)] ∧
    simplifyRichLine area 1 vecGeo (fun d => decide (d.1 < 0) && decide (d.2 = 0)) 10 true [(0, 0), (10, 0), (5, 0), (8, 0)] =
      .ok [(0, 0), (10, 0), (5, 0), (8, 0)] := by decide

example : (0 : Nat) ≤ 1 ∧ ([(0, 0), (5, 0), (10, 0), (10, 9)] : List (Int × Int)) ≠ [] := by decide

/-- The same for segments, and a line that satisfies the hypotheses of the theorem on reversals. -/
example : simplifyRichSegments area 1 vecGeo (fun d => decide (d.1 < 0) && decide (d.2 = 0)) 10 true
      (segs [(0, 0), (5, 0), (10, 0), (3, 0)]) = .ok (segs [(0, 0), (10, 0), (3, 0)]) ∧
    richLineIndices area 1 vecGeo (fun d => decide (d.1 < 0) && decide (d.2 = 0)) 4 true [(0, 0), (5, 0), (10, 0), (3, 0)] =
      .ok [1] := by decide

/-- Part of a line. -/
example : simplify area 1 3 ([(7, 7)] ++ [(0, 0), (5, 0), (10, 0)] ++ [(9, 9)]) 1 4 = .ok ([(7, 7)] ++ [(0, 0), (10, 0)] ++ [(9, 9)]) := by
  decide

/-- A negative tolerance. -/
example (fuel : Nat) : simplifyIndices (fun p _ _ => p) (-1 : Int) [3, 4, 5] fuel 0 3 = .ub :=
  negative_tolerance_fails _ (by decide) _ fuel 3 (by decide) (by decide)

/-- **C30 fails** for segments with gaps: the end of a segment before a gap is never checked; a detour to (0, 100) is
simplified away with tolerance 1. -/
theorem gap_detour_fails :
    simplifyRichSegments area 1 vecGeo (fun d => decide (d.1 < 0) && decide (d.2 = 0)) 10 true
      [((0, 0), (0, 100)), ((5, 0), (10, 0))] = .ok [((0, 0), (10, 0))] ∧ area (0, 100) (0, 0) (10, 0) = 1000 := by decide

end MM.Simplify
