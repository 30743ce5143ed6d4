import Verif.Model.MedianMerge
import Mathlib.Data.List.Basic
import Mathlib.Data.List.Sort
import Mathlib.Data.List.Chain
import Mathlib.Data.List.Nodup
import Mathlib.Data.Nat.Basic
import Mathlib.Tactic.SplitIfs

/-!
# C31: median and median merging
-/

set_option autoImplicit false
set_option linter.unusedSectionVars false

namespace MM.Median

variable {E P R : Type} [LinearOrder R]

/-! ### Median -/

/-- What `std::nth_element` promises: the same values, none before position `k` greater, none behind smaller. -/
def NthOk [LinearOrder E] (nth : List E → Nat → List E) : Prop :=
  ∀ (l : List E) (k : Nat), k < l.length → (nth l k).Perm l ∧
    ∀ (i : Nat) (x y : E), (nth l k)[k]? = some y → (nth l k)[i]? = some x → (i < k → x ≤ y) ∧ (k < i → y ≤ x)

/-- `x` is the k-th smallest of the values (counting from 0): at most `k` are smaller and at least `k + 1` are not greater. -/
def Rank [LinearOrder E] (l : List E) (k : Nat) (x : E) : Prop :=
  x ∈ l ∧ l.countP (fun y => decide (y < x)) ≤ k ∧ k < l.countP (fun y => decide (y ≤ x))

theorem rank_unique [LinearOrder E] {l : List E} {k : Nat} {x y : E} (hx : Rank l k x) (hy : Rank l k y) : x = y := by
  have key : ∀ a b : E, Rank l k a → Rank l k b → ¬ a < b := by
    intro a b ha hb hab
    have h1 : l.countP (fun z => decide (z ≤ a)) ≤ l.countP (fun z => decide (z < b)) := by
      apply List.countP_mono_left
      intro z _ hz
      have : z ≤ a := of_decide_eq_true hz
      exact decide_eq_true (lt_of_le_of_lt this hab)
    have := ha.2.2
    have := hb.2.1
    omega
  rcases lt_trichotomy x y with h | h | h
  · exact absurd h (key x y hx hy)
  · exact h
  · exact absurd h (key y x hy hx)

theorem rank_perm [LinearOrder E] {l l' : List E} (h : l'.Perm l) {k : Nat} {x : E} (hx : Rank l' k x) : Rank l k x :=
  ⟨h.mem_iff.1 hx.1, by rw [← h.countP_eq]; exact hx.2.1, by rw [← h.countP_eq]; exact hx.2.2⟩

theorem nth_rank [LinearOrder E] {nth : List E → Nat → List E} (hn : NthOk nth) {l : List E} {k : Nat} (hk : k < l.length) :
    ∃ y, (nth l k)[k]? = some y ∧ Rank l k y := by
  obtain ⟨hp, ho⟩ := hn l k hk
  have hlen : k < (nth l k).length := by rw [hp.length_eq]; exact hk
  refine ⟨(nth l k)[k], List.getElem?_eq_getElem hlen, rank_perm hp ⟨List.getElem_mem _, ?_, ?_⟩⟩
  · have hsplit : (nth l k).countP (fun y => decide (y < (nth l k)[k])) =
        ((nth l k).take k).countP (fun y => decide (y < (nth l k)[k])) +
          ((nth l k).drop k).countP (fun y => decide (y < (nth l k)[k])) := by
      rw [← List.countP_append, List.take_append_drop]
    have h1 : ((nth l k).take k).countP (fun y => decide (y < (nth l k)[k])) ≤ k := by
      refine le_trans List.countP_le_length ?_
      rw [List.length_take]
      omega
    have h2 : ((nth l k).drop k).countP (fun y => decide (y < (nth l k)[k])) = 0 := by
      rw [List.countP_eq_zero]
      intro x hx
      obtain ⟨i, hi, rfl⟩ := List.mem_iff_getElem.1 hx
      rw [List.getElem_drop]
      rw [decide_eq_true_eq, not_lt]
      rcases Nat.eq_zero_or_pos i with rfl | hpos
      · exact le_refl _
      · rw [List.length_drop] at hi
        exact (ho (k + i) _ _ (List.getElem?_eq_getElem hlen) (List.getElem?_eq_getElem (by omega))).2 (by omega)
    omega
  · have h1 : ((nth l k).take (k + 1)).countP (fun y => decide (y ≤ (nth l k)[k])) = k + 1 := by
      have : ((nth l k).take (k + 1)).length = k + 1 := by rw [List.length_take]; omega
      rw [← this]
      rw [this]
      rw [List.countP_eq_length.2]
      · exact this
      · intro x hx
        obtain ⟨i, hi, rfl⟩ := List.mem_iff_getElem.1 hx
        rw [List.getElem_take]
        rw [decide_eq_true_eq]
        rw [this] at hi
        rcases Nat.lt_or_ge i k with h | h
        · exact (ho i _ _ (List.getElem?_eq_getElem hlen) (List.getElem?_eq_getElem (by omega))).1 h
        · have : i = k := by omega
          subst this
          exact le_refl _
    have h2 : (nth l k).countP (fun y => decide (y ≤ (nth l k)[k])) =
        ((nth l k).take (k + 1)).countP (fun y => decide (y ≤ (nth l k)[k])) +
          ((nth l k).drop (k + 1)).countP (fun y => decide (y ≤ (nth l k)[k])) := by
      rw [← List.countP_append, List.take_append_drop]
    omega

/-- **C31, median of an odd number of values**: the middle one of the sorted values. -/
theorem median_odd [LinearOrder E] {nth : List E → Nat → List E} (hn : NthOk nth) (mean : E → E → E) {l : List E}
    (hl : l.length % 2 = 1) : ∃ x, median nth mean l = .ok x ∧ Rank l (l.length / 2) x := by
  obtain ⟨y, hy, hr⟩ := nth_rank hn (l := l) (k := l.length / 2) (by omega)
  exact ⟨y, by rw [median, if_pos hl, hy], hr⟩

/-- **C31, median of an even number of values**: the mean of the lower middle value and of one that is not smaller.
Missing from the full property: that this is the upper middle value, see `median_even_fails`. -/
theorem median_even_partial [LinearOrder E] {nth : List E → Nat → List E} (hn : NthOk nth) (mean : E → E → E) {l : List E}
    (hl : l.length % 2 = 0) (hne : l ≠ []) :
    ∃ a b, median nth mean l = .ok (mean a b) ∧ Rank l (l.length / 2 - 1) a ∧ b ∈ l ∧ a ≤ b := by
  have hpos : 0 < l.length := List.length_pos_iff.2 hne
  obtain ⟨hp, _⟩ := hn l (l.length / 2) (by omega)
  have hlen : (nth l (l.length / 2)).length = l.length := hp.length_eq
  obtain ⟨y, hy, hr⟩ := nth_rank hn (l := nth l (l.length / 2)) (k := l.length / 2 - 1) (by omega)
  obtain ⟨hp2, ho2⟩ := hn (nth l (l.length / 2)) (l.length / 2 - 1) (by omega)
  have hlen2 : l.length / 2 < (nth (nth l (l.length / 2)) (l.length / 2 - 1)).length := by rw [hp2.length_eq, hlen]; omega
  have hb := List.getElem?_eq_getElem hlen2
  refine ⟨y, _, ?_, rank_perm hp hr, (hp2.trans hp).mem_iff.1 (List.getElem_mem hlen2), ?_⟩
  · rw [median, if_neg (by omega), hy, hb]
  · exact (ho2 (l.length / 2) _ _ hy hb).2 (by omega)

/-- The median of a single value is the value. -/
theorem median_one [LinearOrder E] {nth : List E → Nat → List E} (hn : NthOk nth) (mean : E → E → E) (x : E) :
    median nth mean [x] = .ok x := by
  obtain ⟨y, hy, hr⟩ := median_odd hn mean (l := [x]) rfl
  have := hr.1
  simp only [List.mem_singleton] at this
  subst this
  exact hy

theorem medianPoint_one [LinearOrder E] {nth : List E → Nat → List E} (hn : NthOk nth) (mean : E → E → E) (p : E × E) :
    medianPoint nth mean [p] = .ok p := by
  simp [medianPoint, median_one hn mean]

theorem medianPoint_ok [LinearOrder E] {nth : List E → Nat → List E} (hn : NthOk nth) (mean : E → E → E) {ps : List (E × E)}
    (h : ps ≠ []) : ∃ p, medianPoint nth mean ps = .ok p := by
  have key : ∀ l : List E, l ≠ [] → ∃ x, median nth mean l = .ok x := by
    intro l hl
    rcases Nat.mod_two_eq_zero_or_one l.length with h | h
    · obtain ⟨a, b, h1, _⟩ := median_even_partial hn mean h hl
      exact ⟨_, h1⟩
    · obtain ⟨x, h1, _⟩ := median_odd hn mean h
      exact ⟨x, h1⟩
  obtain ⟨x, hx⟩ := key (ps.map Prod.fst) (by simpa using h)
  obtain ⟨y, hy⟩ := key (ps.map Prod.snd) (by simpa using h)
  exact ⟨(x, y), by rw [medianPoint, hx, Outcome.bind_ok, hy, Outcome.bind_ok]⟩

/-- Sorting is one way to do what `nth_element` promises. -/
def sortNth (l : List Nat) (_ : Nat) : List Nat := l.insertionSort (· ≤ ·)

theorem sortNth_ok : NthOk sortNth := by
  intro l k hk
  refine ⟨List.perm_insertionSort _ _, ?_⟩
  intro i x y hy hx
  have hs : (l.insertionSort (· ≤ ·)).Pairwise (· ≤ ·) := List.pairwise_insertionSort _ _
  rw [List.pairwise_iff_getElem] at hs
  obtain ⟨h1, rfl⟩ := List.getElem?_eq_some_iff.1 hy
  obtain ⟨h2, rfl⟩ := List.getElem?_eq_some_iff.1 hx
  exact ⟨fun h => hs _ _ h2 h1 h, fun h => hs _ _ h1 h2 h⟩

example : median sortNth (fun a b => (a + b) / 2) [9, 1, 5] = .ok 5 ∧
    median sortNth (fun a b => (a + b) / 2) [9, 1, 5, 3] = .ok 4 ∧
    medianPoint sortNth (fun a b => (a + b) / 2) [(9, 2), (1, 2), (5, 7)] = .ok (5, 2) := by decide

/-- Another way: the values behind the position in descending order. -/
def oddNth (l : List Nat) (k : Nat) : List Nat :=
  (l.insertionSort (· ≤ ·)).take (k + 1) ++ ((l.insertionSort (· ≤ ·)).drop (k + 1)).reverse

theorem oddNth_ok : NthOk oddNth := by
  intro l k hk
  have hs : (l.insertionSort (· ≤ ·)).Pairwise (· ≤ ·) := List.pairwise_insertionSort _ _
  have hlen : (l.insertionSort (· ≤ ·)).length = l.length := List.length_insertionSort _ _
  have htake : ((l.insertionSort (· ≤ ·)).take (k + 1)).length = k + 1 := by rw [List.length_take]; omega
  have hperm : (oddNth l k).Perm l := by
    refine (List.Perm.append_left _ (List.reverse_perm _)).trans ?_
    rw [List.take_append_drop]
    exact List.perm_insertionSort _ _
  refine ⟨hperm, ?_⟩
  intro i x y hy hx
  have hsplit := hs
  rw [← List.take_append_drop (k + 1) (l.insertionSort (· ≤ ·)), List.pairwise_append] at hsplit
  unfold oddNth at hx hy
  rw [List.getElem?_append_left (by omega)] at hy
  have hymem := List.mem_of_getElem? hy
  constructor
  · intro hik
    rw [List.getElem?_append_left (by omega)] at hx
    have h3 := hsplit.1
    rw [List.pairwise_iff_getElem] at h3
    obtain ⟨h1, rfl⟩ := List.getElem?_eq_some_iff.1 hy
    obtain ⟨h2, rfl⟩ := List.getElem?_eq_some_iff.1 hx
    exact h3 _ _ h2 h1 hik
  · intro hki
    rw [List.getElem?_append_right (by omega)] at hx
    have hxmem := List.mem_of_getElem? hx
    rw [List.mem_reverse] at hxmem
    exact hsplit.2.2 y hymem x hxmem

/-- **C31 fails** (by what the standard promises; it depends on the library): the second `nth_element` may move the upper
middle value away, the median of 1, 3, 5, 9 is 6. -/
theorem median_even_fails : ∃ nth : List Nat → Nat → List Nat, NthOk nth ∧
    median nth (fun a b => (a + b) / 2) [9, 1, 5, 3] = .ok 6 ∧ Rank [9, 1, 5, 3] 1 3 ∧ Rank [9, 1, 5, 3] 2 5 :=
  ⟨oddNth, oddNth_ok, by decide, ⟨by decide, by decide, by decide⟩, ⟨by decide, by decide, by decide⟩⟩

/-! ### Merging -/

/-- `out` results from the line by replacing each maximal run of points near the first point of the run by its median. -/
inductive Runs (near : P → P → Prop) (med : List P → Outcome P) : List P → List P → Prop where
  | nil : Runs near med [] []
  | run (p : P) (ps rest : List P) (m : P) (out : List P) : (∀ q ∈ ps, near p q) → (∀ q, rest.head? = some q → ¬ near p q) →
      med (p :: ps) = .ok m → Runs near med rest out → Runs near med (p :: ps ++ rest) (m :: out)

theorem prefix_unique {near : P → Prop} {a b c d : List P} (h : a ++ b = c ++ d) (ha : ∀ q ∈ a, near q) (hc : ∀ q ∈ c, near q)
    (hb : ∀ q, b.head? = some q → ¬ near q) (hd : ∀ q, d.head? = some q → ¬ near q) : a = c ∧ b = d := by
  induction a generalizing c with
  | nil =>
    cases c with
    | nil => exact ⟨rfl, h⟩
    | cons x c =>
      simp only [List.nil_append, List.cons_append] at h
      subst h
      exact absurd (hc x List.mem_cons_self) (hb x rfl)
  | cons x a ih =>
    cases c with
    | nil =>
      simp only [List.nil_append, List.cons_append] at h
      subst h
      exact absurd (ha x List.mem_cons_self) (hd x rfl)
    | cons y c =>
      simp only [List.cons_append, List.cons.injEq] at h
      obtain ⟨rfl, h⟩ := h
      obtain ⟨rfl, rfl⟩ := ih h (fun q hq => ha q (List.mem_cons_of_mem _ hq)) (fun q hq => hc q (List.mem_cons_of_mem _ hq))
      exact ⟨rfl, rfl⟩

/-- The runs are determined by the line. -/
theorem Runs.unique {near : P → P → Prop} {med : List P → Outcome P} {l o1 o2 : List P} (h1 : Runs near med l o1)
    (h2 : Runs near med l o2) : o1 = o2 := by
  induction h1 generalizing o2 with
  | nil =>
    generalize hl : ([] : List P) = l at h2
    cases h2 with
    | nil => rfl
    | run => simp at hl
  | run p ps rest m out hn hs hm _ ih =>
    generalize hl : p :: ps ++ rest = l at h2
    cases h2 with
    | nil => simp at hl
    | run p' ps' rest' m' out' hn' hs' hm' hr' =>
      simp only [List.cons_append, List.cons.injEq] at hl
      obtain ⟨rfl, hl⟩ := hl
      obtain ⟨rfl, rfl⟩ := prefix_unique hl hn hn' hs hs'
      rw [hm] at hm'
      injection hm' with hm'
      rw [hm', ih hr']

/-- Median merging does not add points. -/
theorem Runs.length_le {near : P → P → Prop} {med : List P → Outcome P} {l o : List P} (h : Runs near med l o) :
    o.length ≤ l.length := by
  induction h with
  | nil => exact Nat.le_refl _
  | run p ps rest m out _ _ _ _ ih => simp only [List.length_cons, List.length_append]; omega

/-- Points without a near successor remain. -/
theorem Runs.isolated {near : P → P → Prop} {med : List P → Outcome P} (hone : ∀ p, med [p] = .ok p) {l o : List P}
    (h : Runs near med l o) (hfar : l.IsChain (fun p q => ¬ near p q)) : o = l := by
  induction h with
  | nil => rfl
  | run p ps rest m out hn _ hm _ ih =>
    cases ps with
    | nil =>
      rw [hone] at hm
      injection hm with hm
      subst hm
      rw [ih (List.IsChain.tail hfar)]
      rfl
    | cons q ps =>
      simp only [List.cons_append, List.isChain_cons_cons] at hfar
      exact absurd (hn q List.mem_cons_self) hfar.1

theorem numbered_map (l : List P) : ∀ i : Nat, (numbered i l).map Prod.snd = l := by
  induction l with
  | nil => intro i; rfl
  | cons p ps ih => intro i; simp [numbered, ih]

theorem numbered_ge (l : List P) : ∀ (i : Nat), ∀ e ∈ numbered i l, i ≤ e.1 := by
  induction l with
  | nil => intro i e he; simp [numbered] at he
  | cons p ps ih =>
    intro i e he
    rcases List.mem_cons.1 he with rfl | he
    · exact Nat.le_refl _
    · have := ih (i + 1) e he; omega

theorem numbered_pairwise (l : List P) : ∀ i : Nat, (numbered i l).Pairwise (fun a b => a.1 < b.1) := by
  induction l with
  | nil => intro i; exact List.Pairwise.nil
  | cons p ps ih =>
    intro i
    refine List.Pairwise.cons ?_ (ih (i + 1))
    intro e he
    have := numbered_ge ps (i + 1) e he
    simp only
    omega

/-- The search takes exactly the points at the front that are among the results. -/
theorem connected_spec (rest : List (Nat × P)) : ∀ found : List (Nat × P), rest.Pairwise (fun a b => a.1 < b.1) →
    (∀ e ∈ found, ∀ x ∈ rest, e.1 = x.1 → e = x) →
    (connected found rest).1 ++ (connected found rest).2 = rest ∧ (∀ e ∈ (connected found rest).1, e ∈ found) ∧
      ∀ e, (connected found rest).2.head? = some e → e ∉ found := by
  induction rest with
  | nil => intro found _ _; simp [connected]
  | cons x xs ih =>
    intro found hp hu
    rw [List.pairwise_cons] at hp
    rw [connected]
    cases hf : found.find? (fun e => e.1 == x.1) with
    | none =>
      simp only
      refine ⟨rfl, by simp, ?_⟩
      intro e he
      simp only [List.head?_cons, Option.some.injEq] at he
      subst he
      intro hmem
      rw [List.find?_eq_none] at hf
      have := hf x hmem
      simp at this
    | some r =>
      simp only
      have hr1 : r ∈ found := List.mem_of_find?_eq_some hf
      have hr2 : r.1 = x.1 := by have := List.find?_some hf; simpa using this
      have hrx : r = x := hu r hr1 x List.mem_cons_self hr2
      subst hrx
      obtain ⟨h1, h2, h3⟩ := ih (found.filter (fun e => e.1 != r.1)) hp.2
        (fun e he y hy => hu e (List.mem_filter.1 he).1 y (List.mem_cons_of_mem _ hy))
      refine ⟨by rw [List.cons_append, h1], ?_, ?_⟩
      · intro e he
        rcases List.mem_cons.1 he with rfl | he
        · exact hr1
        · exact (List.mem_filter.1 (h2 e he)).1
      · intro e he hmem
        refine h3 e he (List.mem_filter.2 ⟨hmem, ?_⟩)
        have : e ∈ xs := by
          rw [← h1]
          exact List.mem_append_right _ (List.mem_of_mem_head? (by simpa using he))
        have := hp.1 e this
        simp only [bne_iff_ne, ne_eq]
        omega

theorem mergeLoop_runs {med : List P → Outcome P} {box : P → R → P → Bool} {dist : P → P → R} {zero : R} {adjust : P → R}
    (hmed : ∀ ps, ps ≠ [] → ∃ m, med ps = .ok m) (hpos : ∀ p, zero < adjust p) (hself : ∀ p, dist p p ≤ adjust p)
    (hbox : ∀ p q, dist p q ≤ adjust p → box p (adjust p) q = true) (n : Nat) : ∀ (done : List P) (rest : List (Nat × P)),
    rest.length ≤ n → rest.Pairwise (fun a b => a.1 < b.1) →
    ∃ out, Runs (fun p q => dist p q ≤ adjust p) med (rest.map Prod.snd) out ∧
      ∀ fuel, n < fuel → mergeLoop med box dist zero adjust fuel done rest rest = .ok (done ++ out) := by
  induction n with
  | zero =>
    intro done rest h _
    have : rest = [] := List.length_eq_zero_iff.1 (by omega)
    subst this
    refine ⟨[], Runs.nil, ?_⟩
    intro fuel hf
    obtain ⟨f, rfl⟩ : ∃ f, fuel = f + 1 := ⟨fuel - 1, by omega⟩
    rw [mergeLoop]
    simp
  | succ n ih =>
    intro done rest hlen hp
    cases rest with
    | nil =>
      refine ⟨[], Runs.nil, ?_⟩
      intro fuel hf
      obtain ⟨f, rfl⟩ : ∃ f, fuel = f + 1 := ⟨fuel - 1, by omega⟩
      rw [mergeLoop]
      simp
    | cons x xs =>
      have hres : ∀ e, e ∈ results box dist (adjust x.2) x.2 (x :: xs) ↔ e ∈ x :: xs ∧ dist x.2 e.2 ≤ adjust x.2 := by
        intro e
        unfold results
        rw [List.mem_filter, List.mem_filter]
        constructor
        · rintro ⟨⟨h1, _⟩, h2⟩
          exact ⟨h1, by simpa using h2⟩
        · rintro ⟨h1, h2⟩
          exact ⟨⟨h1, hbox _ _ h2⟩, by simpa using h2⟩
      have huniq : ∀ e ∈ results box dist (adjust x.2) x.2 (x :: xs), ∀ y ∈ x :: xs, e.1 = y.1 → e = y := by
        intro e he y hy hey
        have he' := ((hres e).1 he).1
        have hnd : ((x :: xs).map Prod.fst).Nodup := by
          rw [List.Nodup, List.pairwise_map]
          exact hp.imp (fun hab => Nat.ne_of_lt hab)
        exact List.inj_on_of_nodup_map hnd he' hy hey
      obtain ⟨c1, c2, c3⟩ := connected_spec (x :: xs) (results box dist (adjust x.2) x.2 (x :: xs)) hp huniq
      have hx : x ∈ results box dist (adjust x.2) x.2 (x :: xs) := (hres x).2 ⟨List.mem_cons_self, hself x.2⟩
      generalize hc : connected (results box dist (adjust x.2) x.2 (x :: xs)) (x :: xs) = c at c1 c2 c3
      obtain ⟨run, rest'⟩ := c
      simp only at c1 c2 c3
      obtain ⟨run', rfl⟩ : ∃ run', run = x :: run' := by
        cases run with
        | nil =>
          simp only [List.nil_append] at c1
          subst c1
          exact absurd hx (c3 x rfl)
        | cons y run' =>
          simp only [List.cons_append, List.cons.injEq] at c1
          exact ⟨run', by rw [c1.1]⟩
      simp only [List.cons_append, List.cons.injEq, true_and] at c1
      obtain ⟨m, hm⟩ := hmed (x.2 :: run'.map Prod.snd) (by simp)
      have hp' : (x :: run' ++ rest').Pairwise (fun a b => a.1 < b.1) := by
        rw [List.cons_append, c1]; exact hp
      rw [List.pairwise_append] at hp'
      have hlen' : rest'.length ≤ n := by
        have := congrArg List.length c1
        simp only [List.length_append] at this
        simp only [List.length_cons] at hlen
        omega
      obtain ⟨out, hr, hg⟩ := ih (done ++ [m]) rest' hlen' hp'.2.1
      refine ⟨m :: out, ?_, ?_⟩
      · have hmap : (x :: xs).map Prod.snd = x.2 :: run'.map Prod.snd ++ rest'.map Prod.snd := by
          rw [← c1]; simp
        rw [hmap]
        refine Runs.run x.2 (run'.map Prod.snd) (rest'.map Prod.snd) m out ?_ ?_ hm hr
        · intro q hq
          obtain ⟨e, he, rfl⟩ := List.mem_map.1 hq
          exact ((hres e).1 (c2 e (List.mem_cons_of_mem _ he))).2
        · intro q hq hnear
          rw [List.head?_map] at hq
          obtain ⟨e, he, rfl⟩ := Option.map_eq_some_iff.1 hq
          refine c3 e he ((hres e).2 ⟨?_, hnear⟩)
          rw [← c1]
          exact List.mem_cons_of_mem _ (List.mem_append_right _ (List.mem_of_mem_head? (by simpa using he)))
      · intro fuel hf
        obtain ⟨f, rfl⟩ : ∃ f, fuel = f + 1 := ⟨fuel - 1, by omega⟩
        rw [mergeLoop, if_neg (not_le.2 (hpos x.2)), if_neg (by
          intro h
          rw [List.isEmpty_iff] at h
          rw [h] at hx
          simp at hx), hc]
        simp only [List.isEmpty_cons, Bool.false_eq_true, if_false, List.map_cons, hm, Outcome.bind_ok]
        have hidx : (x :: xs).filter (fun e => (x :: run').all fun c => c.1 != e.1) = rest' := by
          rw [← c1, ← List.cons_append, List.filter_append]
          have h1 : (x :: run').filter (fun e => (x :: run').all fun c => c.1 != e.1) = [] := by
            rw [List.filter_eq_nil_iff]
            intro e he hall
            rw [List.all_eq_true] at hall
            have := hall e he
            simp at this
          have h2 : rest'.filter (fun e => (x :: run').all fun c => c.1 != e.1) = rest' := by
            rw [List.filter_eq_self]
            intro e he
            rw [List.all_eq_true]
            intro c hcm
            have := hp'.2.2 c hcm e he
            simp only [bne_iff_ne, ne_eq]
            omega
          rw [h1, h2, List.nil_append]
        rw [hidx, hg f (by omega)]
        simp

/-- **C31.**  If the tolerance is positive at every point, and the box contains all points within tolerance, then median
merging terminates (one pass per point) and replaces each maximal run of points that are within the tolerance of the first
point of the run by the median of the run, in order.  By `Runs.unique` this determines the result. -/
theorem merge_runs {med : List P → Outcome P} {box : P → R → P → Bool} {dist : P → P → R} {zero : R} {adjust : P → R}
    (hmed : ∀ ps, ps ≠ [] → ∃ m, med ps = .ok m) (hpos : ∀ p, zero < adjust p) (hself : ∀ p, dist p p = zero)
    (hbox : ∀ p q, dist p q ≤ adjust p → box p (adjust p) q = true) (line : List P) :
    ∃ out, Runs (fun p q => dist p q ≤ adjust p) med line out ∧
      ∀ fuel, line.length < fuel → medianMerge med box dist zero adjust fuel line = .ok out := by
  obtain ⟨out, hr, hg⟩ := mergeLoop_runs hmed hpos (fun p => by rw [hself]; exact le_of_lt (hpos p)) hbox line.length []
    (numbered 0 line) (by have := congrArg List.length (numbered_map line 0); simp at this; omega) (numbered_pairwise line 0)
  rw [numbered_map] at hr
  exact ⟨out, hr, fun fuel hf => by rw [medianMerge, hg fuel hf]; rfl⟩

/-- A tolerance that is not positive at the first point is refused. -/
theorem merge_throws (med : List P → Outcome P) (box : P → R → P → Bool) (dist : P → P → R) (zero : R) (adjust : P → R)
    (p : P) (line : List P) (h : adjust p ≤ zero) (fuel : Nat) :
    medianMerge med box dist zero adjust (fuel + 1) (p :: line) = .throws := by
  rw [medianMerge, numbered, mergeLoop, if_pos h]

/-- The adaptive tolerance is never below the given one. -/
theorem adaptive_ge (half : R → R) (nearest : P → Option R) (tol : R) (use : Bool) (p : P) :
    tol ≤ adaptive half nearest tol use p := by
  unfold adaptive
  cases use with
  | false => exact le_refl _
  | true =>
    simp only [if_true]
    cases nearest p with
    | none => exact le_refl _
    | some d =>
      simp only
      split_ifs with h
      · exact le_of_lt h
      · exact le_refl _

/-! ### Example -/

def gapDist (p q : Nat × Nat) : Nat := (p.1 - q.1) + (q.1 - p.1) + ((p.2 - q.2) + (q.2 - p.2))

/-- Three points near each other become one, a return to them later does not matter, the others stay. -/
example : medianMerge (medianPoint sortNth (fun a b => (a + b) / 2)) (fun _ _ _ => true) gapDist 0
      (adaptive (· / 2) (fun _ => none) 3 true) 9 [(0, 0), (1, 0), (2, 1), (9, 9), (0, 1), (20, 1)] =
    .ok [(1, 0), (9, 9), (0, 1), (20, 1)] := by decide

example : (∀ ps, ps ≠ [] → ∃ m, medianPoint sortNth (fun a b => (a + b) / 2) ps = .ok m) ∧ (∀ p, gapDist p p = 0) ∧
    ∀ p : Nat × Nat, 0 < adaptive (· / 2) (fun _ => none) 3 true p :=
  ⟨fun _ h => medianPoint_ok sortNth_ok _ h, by simp [gapDist], by simp [adaptive]⟩

end MM.Median
