import Verif.Model.Learn
import Mathlib.Algebra.Order.BigOperators.Group.List
import Mathlib.Tactic.SplitIfs
import Mathlib.Tactic.Linarith
import Mathlib.Data.List.Nodup

/-! # Sweeps over acyclic processes (helper lemmas for C16, C17) -/

set_option autoImplicit false
set_option linter.unusedSectionVars false

namespace MM.Learn

variable {R : Type} [CommRing R] [LinearOrder R] [IsStrictOrderedRing R]

/-! ### Picking the best action -/

theorem pickFrom_spec (f : Nat → R) (as : List Nat) : ∀ (acc : Option (Nat × R)),
    (∀ b m, acc = some (b, m) → m = f b) →
    (as = [] ∧ pickFrom f acc as = acc) ∨
    ∃ a, pickFrom f acc as = some (a, f a) ∧ (a ∈ as ∨ acc = some (a, f a)) ∧ (∀ b ∈ as, f b ≤ f a) ∧
      (∀ b m, acc = some (b, m) → m ≤ f a) := by
  induction as with
  | nil => intro acc _; exact .inl ⟨rfl, rfl⟩
  | cons x as ih =>
    intro acc hacc
    right
    unfold pickFrom
    match acc, hacc with
    | none, hacc =>
      simp only
      rcases ih (some (x, f x)) (by intro b m h; cases h; rfl) with ⟨rfl, h⟩ | ⟨a, h1, h2, h3, h4⟩
      · exact ⟨x, h, by simp, by simp, by simp⟩
      · refine ⟨a, h1, ?_, ?_, by simp⟩
        · rcases h2 with h2 | h2
          · exact .inl (by simp [h2])
          · cases h2; exact .inl (by simp)
        · intro b hb
          rcases List.mem_cons.1 hb with rfl | hb
          · exact h4 _ _ rfl
          · exact h3 b hb
    | some (y, m), hacc =>
      have hm := hacc y m rfl
      subst hm
      simp only
      by_cases hlt : f y < f x
      · rw [if_pos hlt]
        rcases ih (some (x, f x)) (by intro b m h; cases h; rfl) with ⟨rfl, h⟩ | ⟨a, h1, h2, h3, h4⟩
        · exact ⟨x, h, by simp, by simp, by simp [hlt.le]⟩
        · have hx := h4 _ _ rfl
          refine ⟨a, h1, ?_, ?_, ?_⟩
          · rcases h2 with h2 | h2
            · exact .inl (by simp [h2])
            · cases h2; exact .inl (by simp)
          · intro b hb
            rcases List.mem_cons.1 hb with rfl | hb
            · exact hx
            · exact h3 b hb
          · intro b m hb; cases hb; exact hlt.le.trans hx
      · rw [if_neg hlt]
        rcases ih (some (y, f y)) (by intro b m h; cases h; rfl) with ⟨rfl, h⟩ | ⟨a, h1, h2, h3, h4⟩
        · exact ⟨y, h, by simp, by simpa using hlt, by simp⟩
        · have hy := h4 _ _ rfl
          refine ⟨a, h1, ?_, ?_, ?_⟩
          · rcases h2 with h2 | h2
            · exact .inl (by simp [h2])
            · exact .inr h2
          · intro b hb
            rcases List.mem_cons.1 hb with rfl | hb
            · exact (not_lt.1 hlt).trans hy
            · exact h3 b hb
          · intro b m hb; cases hb; exact hy

theorem pick_spec (f : Nat → R) {as : List Nat} (h : as ≠ []) :
    ∃ a, pick f as = some (a, f a) ∧ a ∈ as ∧ ∀ b ∈ as, f b ≤ f a := by
  rcases pickFrom_spec f as none (by simp) with ⟨h', -⟩ | ⟨a, h1, h2, h3, -⟩
  · exact absurd h' h
  · rcases h2 with h2 | h2
    · exact ⟨a, h1, h2, h3⟩
    · cases h2

/-! ### Generic sweeps -/

/-- A sweep that replaces the value of each state by `B`. -/
def gSweep (B : (Nat → R) → Nat → R) : List Nat → (Nat → R) × R → (Nat → R) × R
  | [], acc => acc
  | s :: ss, (V, sum) => gSweep B ss (upd V s (B V s), sum + B V s)

variable {B : (Nat → R) → Nat → R}

theorem gSweep_off {l : List Nat} {t : Nat} (ht : t ∉ l) : ∀ (V : Nat → R) (x : R), (gSweep B l (V, x)).1 t = V t := by
  induction l with
  | nil => intro V x; rfl
  | cons s ss ih =>
    intro V x
    simp only [List.mem_cons, not_or] at ht
    unfold gSweep
    rw [ih ht.2]
    simp [upd, ht.1]

theorem gSweep_sum {l : List Nat} (hn : l.Nodup) : ∀ (V : Nat → R) (x : R),
    (gSweep B l (V, x)).2 = x + (l.map (gSweep B l (V, x)).1).sum := by
  induction l with
  | nil => intro V x; simp [gSweep]
  | cons s ss ih =>
    intro V x
    rw [List.nodup_cons] at hn
    unfold gSweep
    rw [ih hn.2]
    simp only [List.map_cons, List.sum_cons]
    rw [gSweep_off hn.1]
    simp [upd, add_assoc]

variable {S : List Nat}

/-- Larger values of the states give larger values. -/
def Mono (B : (Nat → R) → Nat → R) (S : List Nat) : Prop :=
  ∀ V W, (∀ t ∈ S, V t ≤ W t) → ∀ s ∈ S, B V s ≤ B W s

theorem gSweep_down (hm : Mono B S) {l : List Nat} (hl : ∀ s ∈ l, s ∈ S) : ∀ (V : Nat → R) (x : R),
    (∀ s ∈ S, B V s ≤ V s) →
    (∀ t ∈ S, (gSweep B l (V, x)).1 t ≤ V t) ∧
      ∀ s ∈ S, B (gSweep B l (V, x)).1 s ≤ (gSweep B l (V, x)).1 s := by
  induction l with
  | nil => intro V x h; exact ⟨fun t _ => le_refl _, h⟩
  | cons s ss ih =>
    intro V x h
    have hsS := hl s (by simp)
    have hle : ∀ t ∈ S, upd V s (B V s) t ≤ V t := by
      intro t ht
      unfold upd
      split_ifs with hts
      · subst hts; exact h t ht
      · exact le_refl _
    have hsup : ∀ t ∈ S, B (upd V s (B V s)) t ≤ upd V s (B V s) t := by
      intro t ht
      have h1 := hm _ _ hle t ht
      by_cases hts : t = s
      · subst hts; simpa [upd] using h1
      · have : upd V s (B V s) t = V t := by simp [upd, hts]
        rw [this]; exact h1.trans (h t ht)
    obtain ⟨h1, h2⟩ := ih (fun t ht => hl t (by simp [ht])) (upd V s (B V s)) (x + B V s) hsup
    unfold gSweep
    exact ⟨fun t ht => (h1 t ht).trans (hle t ht), h2⟩

theorem gSweep_up (hm : Mono B S) {l : List Nat} (hl : ∀ s ∈ l, s ∈ S) : ∀ (V : Nat → R) (x : R),
    (∀ s ∈ S, V s ≤ B V s) →
    (∀ t ∈ S, V t ≤ (gSweep B l (V, x)).1 t) ∧
      ∀ s ∈ S, (gSweep B l (V, x)).1 s ≤ B (gSweep B l (V, x)).1 s := by
  induction l with
  | nil => intro V x h; exact ⟨fun t _ => le_refl _, h⟩
  | cons s ss ih =>
    intro V x h
    have hsS := hl s (by simp)
    have hle : ∀ t ∈ S, V t ≤ upd V s (B V s) t := by
      intro t ht
      unfold upd
      split_ifs with hts
      · subst hts; exact h t ht
      · exact le_refl _
    have hsup : ∀ t ∈ S, upd V s (B V s) t ≤ B (upd V s (B V s)) t := by
      intro t ht
      have h1 := hm _ _ hle t ht
      by_cases hts : t = s
      · subst hts; simpa [upd] using h1
      · have : upd V s (B V s) t = V t := by simp [upd, hts]
        rw [this]; exact (h t ht).trans h1
    obtain ⟨h1, h2⟩ := ih (fun t ht => hl t (by simp [ht])) (upd V s (B V s)) (x + B V s) hsup
    unfold gSweep
    exact ⟨fun t ht => (hle t ht).trans (h1 t ht), h2⟩

/-- A sweep raises no value above one that no replacement exceeds. -/
theorem gSweep_nonpos (hB : ∀ V : Nat → R, (∀ t ∈ S, V t ≤ 0) → ∀ s ∈ S, B V s ≤ 0) {l : List Nat}
    (hl : ∀ s ∈ l, s ∈ S) : ∀ (V : Nat → R) (x : R), (∀ t ∈ S, V t ≤ 0) → ∀ t ∈ S, (gSweep B l (V, x)).1 t ≤ 0 := by
  induction l with
  | nil => intro V x h; exact h
  | cons s ss ih =>
    intro V x h
    unfold gSweep
    refine ih (fun t ht => hl t (by simp [ht])) _ _ ?_
    intro t ht
    unfold upd
    split_ifs
    · exact hB V h s (hl s (by simp))
    · exact h t ht

/-- An unchanged sweep: every value is its own replacement. -/
theorem gSweep_fix {l : List Nat} (hn : l.Nodup) : ∀ (V : Nat → R) (x : R),
    (∀ t ∈ l, (gSweep B l (V, x)).1 t = V t) → ∀ s ∈ l, B V s = V s := by
  induction l with
  | nil => intro V x _ s hs; cases hs
  | cons s ss ih =>
    intro V x h
    rw [List.nodup_cons] at hn
    unfold gSweep at h
    have hs := h s (by simp)
    rw [gSweep_off hn.1] at hs
    have hs' : B V s = V s := by simpa [upd] using hs
    have hV : upd V s (B V s) = V := by
      funext t; unfold upd; split_ifs with hts
      · subst hts; exact hs'
      · rfl
    rw [hV] at h
    intro t ht
    rcases List.mem_cons.1 ht with rfl | ht
    · exact hs'
    · exact ih hn.2 V _ (fun u hu => h u (by simp [hu])) t ht

/-- Each new value was computed from values that are old or final. -/
theorem gSweep_from {l : List Nat} (hn : l.Nodup) : ∀ (V : Nat → R) (x : R), ∀ s ∈ l,
    ∃ M : Nat → R, (gSweep B l (V, x)).1 s = B M s ∧ ∀ t, M t = V t ∨ M t = (gSweep B l (V, x)).1 t := by
  induction l with
  | nil => intro V x s hs; cases hs
  | cons s ss ih =>
    intro V x t ht
    rw [List.nodup_cons] at hn
    unfold gSweep
    rcases List.mem_cons.1 ht with rfl | ht'
    · refine ⟨V, ?_, fun u => .inl rfl⟩
      rw [gSweep_off hn.1]; simp [upd]
    · obtain ⟨M, h1, h2⟩ := ih hn.2 (upd V s (B V s)) (x + B V s) t ht'
      refine ⟨M, h1, fun u => ?_⟩
      rcases h2 u with h2 | h2
      · by_cases hus : u = s
        · subst hus
          right
          rw [h2, gSweep_off hn.1]
        · left; rw [h2]; simp [upd, hus]
      · exact .inr h2

/-- The values depend only on states of lower rank. -/
def Ranked (B : (Nat → R) → Nat → R) (S : List Nat) (rank : Nat → Nat) : Prop :=
  ∀ V W s, s ∈ S → (∀ t ∈ S, rank t < rank s → V t = W t) → B V s = B W s

/-- Iterated sweeps. -/
def iter (sweep : (Nat → R) → (Nat → R) × R) (V : Nat → R) : Nat → Nat → R
  | 0 => V
  | k + 1 => (sweep (iter sweep V k)).1

theorem iter_succ' (sweep : (Nat → R) → (Nat → R) × R) (V : Nat → R) (k : Nat) :
    iter sweep V (k + 1) = iter sweep (sweep V).1 k := by
  induction k with
  | zero => rfl
  | succ k ih => rw [iter, ih, iter]

theorem iter_stationary {rank : Nat → Nat} (hr : Ranked B S rank) (hn : S.Nodup) (V : Nat → R) :
    ∀ k j, k ≤ j → ∀ s ∈ S, rank s < k →
      iter (fun V => gSweep B S (V, 0)) V (j + 1) s = iter (fun V => gSweep B S (V, 0)) V j s := by
  intro k
  induction k with
  | zero => intro j _ s _ h; omega
  | succ k ih =>
    intro j hj s hs hrs
    obtain ⟨j, rfl⟩ : ∃ i, j = i + 1 := ⟨j - 1, by omega⟩
    obtain ⟨M, h1, h2⟩ := gSweep_from hn (iter (fun V => gSweep B S (V, 0)) V (j + 1)) 0 s hs (B := B)
    obtain ⟨N, h3, h4⟩ := gSweep_from hn (iter (fun V => gSweep B S (V, 0)) V j) 0 s hs (B := B)
    rw [show iter (fun V => gSweep B S (V, 0)) V (j + 1 + 1) s = B M s from h1]
    rw [show iter (fun V => gSweep B S (V, 0)) V (j + 1) s = B N s from h3]
    refine hr _ _ _ hs ?_
    intro t ht hlt
    have e1 := ih (j + 1) (by omega) t ht (by omega)
    have e2 := ih j (by omega) t ht (by omega)
    have e3 : M t = iter (fun V => gSweep B S (V, 0)) V (j + 1) t := by
      rcases h2 t with h | h
      · exact h
      · rw [h]; exact e1
    have e4 : N t = iter (fun V => gSweep B S (V, 0)) V (j + 1) t := by
      rcases h4 t with h | h
      · rw [h]; exact e2.symm
      · exact h
    rw [e3, e4]

/-! ### The loop over sweeps -/

/-- The value compared by the loop after `k` sweeps. -/
def total (sweep : (Nat → R) → (Nat → R) × R) (V : Nat → R) (v0 : R) : Nat → R
  | 0 => v0
  | k + 1 => (sweep (iter sweep V k)).2

theorem total_succ' (sweep : (Nat → R) → (Nat → R) × R) (V : Nat → R) (v0 : R) (k : Nat) :
    total sweep V v0 (k + 1) = total sweep (sweep V).1 (sweep V).2 k := by
  cases k with
  | zero => rfl
  | succ k => simp only [total]; rw [iter_succ']

/-- Not yet within the threshold. -/
def Open (th : R) (delta : Option R) : Prop := ∀ d, delta = some d → th < d

theorem settled_false {th : R} {delta : Option R} (ho : Open th delta) : settled th delta = false := by
  cases delta with
  | none => rfl
  | some d => simp [settled, ho d rfl]

theorem untilSmall_open {sweep : (Nat → R) → (Nat → R) × R} {th : R} {V : Nat → R} {v : R} {delta : Option R}
    (ho : Open th delta) (k : Nat) : ∃ d',
    untilSmall sweep th (k + 1) V v delta = untilSmall sweep th k (sweep V).1 (sweep V).2 (some d') ∧
    (|(sweep V).2 - v| ≤ th → d' ≤ th) ∧ (th < |(sweep V).2 - v| → th < d') := by
  refine ⟨smaller |(sweep V).2 - v| delta, ?_, ?_, ?_⟩
  · rw [untilSmall, settled_false ho]; rfl
  · intro h
    cases delta with
    | none => exact h
    | some d =>
      have := ho d rfl
      simp only [smaller]
      split_ifs with h'
      · exact h
      · exact absurd (lt_of_le_of_lt h this) h'
  · intro h
    cases delta with
    | none => exact h
    | some d =>
      have := ho d rfl
      simp only [smaller]
      split_ifs with h'
      · exact h
      · exact this

theorem untilSmall_closed {sweep : (Nat → R) → (Nat → R) × R} {th : R} {V : Nat → R} {v d : R} (hd : d ≤ th) (k : Nat) :
    untilSmall sweep th (k + 1) V v (some d) = some V := by
  rw [untilSmall, if_pos (by simp [settled, hd])]

/-- What the loop returns. -/
theorem untilSmall_result {sweep : (Nat → R) → (Nat → R) × R} {th : R} : ∀ (n : Nat) (V : Nat → R) (v : R)
    (delta : Option R) (W : Nat → R), Open th delta → untilSmall sweep th n V v delta = some W →
    ∃ k, W = iter sweep V (k + 1) ∧ |total sweep V v (k + 1) - total sweep V v k| ≤ th := by
  intro n
  induction n with
  | zero => intro V v delta W _ h; cases h
  | succ n ih =>
    intro V v delta W ho h
    obtain ⟨d', h1, h2, h3⟩ := untilSmall_open (sweep := sweep) (V := V) (v := v) ho n
    rw [h1] at h
    by_cases hth : |(sweep V).2 - v| ≤ th
    · cases n with
      | zero => cases h
      | succ n =>
        rw [untilSmall_closed (h2 hth)] at h
        cases h
        exact ⟨0, rfl, hth⟩
    · obtain ⟨k, e1, e2⟩ := ih _ _ _ W (by intro d hd; cases hd; exact h3 (not_le.1 hth)) h
      refine ⟨k + 1, ?_, ?_⟩
      · rw [iter_succ']; exact e1
      · rw [total_succ', total_succ' sweep V v k]; exact e2

theorem untilSmall_succ {sweep : (Nat → R) → (Nat → R) × R} {th : R} : ∀ (n : Nat) (V : Nat → R) (v : R)
    (delta : Option R) (W : Nat → R), untilSmall sweep th n V v delta = some W →
    untilSmall sweep th (n + 1) V v delta = some W := by
  intro n
  induction n with
  | zero => intro V v delta W h; cases h
  | succ n ih =>
    intro V v delta W h
    rw [untilSmall] at h ⊢
    split_ifs at h ⊢ with hs
    · exact h
    · exact ih _ _ _ _ h

theorem untilSmall_mono {sweep : (Nat → R) → (Nat → R) × R} {th : R} {n m : Nat} (hnm : n ≤ m) {V : Nat → R} {v : R}
    {delta : Option R} {W : Nat → R} (h : untilSmall sweep th n V v delta = some W) :
    untilSmall sweep th m V v delta = some W := by
  induction hnm with
  | refl => exact h
  | step _ ih => exact untilSmall_succ _ _ _ _ _ ih

theorem untilSmall_stops {sweep : (Nat → R) → (Nat → R) × R} {th : R} : ∀ (k : Nat) (V : Nat → R) (v : R)
    (delta : Option R), |total sweep V v (k + 1) - total sweep V v k| ≤ th →
    ∃ W, untilSmall sweep th (k + 2) V v delta = some W := by
  intro k
  induction k with
  | zero =>
    intro V v delta h
    by_cases ho : Open th delta
    · obtain ⟨d', h1, h2, -⟩ := untilSmall_open (sweep := sweep) (V := V) (v := v) ho 1
      rw [h1, untilSmall_closed (h2 h)]
      exact ⟨_, rfl⟩
    · simp only [Open, not_forall, not_lt] at ho
      obtain ⟨d, rfl, hd⟩ := ho
      exact ⟨_, untilSmall_closed hd _⟩
  | succ k ih =>
    intro V v delta h
    by_cases ho : Open th delta
    · obtain ⟨d', h1, -, -⟩ := untilSmall_open (sweep := sweep) (V := V) (v := v) ho (k + 2)
      rw [total_succ', total_succ' sweep V v k] at h
      obtain ⟨W, hW⟩ := ih _ _ (some d') h
      exact ⟨W, h1.trans hW⟩
    · simp only [Open, not_forall, not_lt] at ho
      obtain ⟨d, rfl, hd⟩ := ho
      exact ⟨_, untilSmall_closed hd _⟩

/-! ### Sums -/

theorem sum_eq_of_le {l : List Nat} {f g : Nat → R} (h : ∀ t ∈ l, f t ≤ g t) (he : (l.map f).sum = (l.map g).sum) :
    ∀ t ∈ l, f t = g t := by
  induction l with
  | nil => intro t ht; cases ht
  | cons s ss ih =>
    simp only [List.map_cons, List.sum_cons] at he
    have h1 := h s (by simp)
    have h2 : (ss.map f).sum ≤ (ss.map g).sum := List.sum_le_sum (fun t ht => h t (by simp [ht]))
    intro t ht
    have e1 : f s = g s := by
      apply le_antisymm h1
      linarith
    rcases List.mem_cons.1 ht with rfl | ht
    · exact e1
    · exact ih (fun t ht => h t (by simp [ht])) (by linarith) t ht

theorem Mono.congr (hm : Mono B S) {V W : Nat → R} (h : ∀ t ∈ S, V t = W t) : ∀ s ∈ S, B V s = B W s := fun s hs =>
  le_antisymm (hm _ _ (fun t ht => (h t ht).le) s hs) (hm _ _ (fun t ht => (h t ht).ge) s hs)

/-- The loop ends whatever the rewards. -/
theorem loop_stops {rank : Nat → Nat} (hr : Ranked B S rank) (hn : S.Nodup) {th : R} (hth : 0 ≤ th) (V : Nat → R)
    (v : R) : ∃ k W, untilSmall (fun V => gSweep B S (V, 0)) th k V v none = some W := by
  obtain ⟨N, hN⟩ : ∃ N, ∀ s ∈ S, rank s < N := by
    clear hn hr
    induction S with
    | nil => exact ⟨0, by simp⟩
    | cons s ss ih =>
      obtain ⟨N, hN⟩ := ih
      refine ⟨max N (rank s + 1), fun t ht => ?_⟩
      rcases List.mem_cons.1 ht with rfl | ht
      · omega
      · have := hN t ht; omega
  refine ⟨N + 1 + 2, ?_⟩
  apply untilSmall_stops
  have : total (fun V => gSweep B S (V, 0)) V v (N + 1 + 1) = total (fun V => gSweep B S (V, 0)) V v (N + 1) := by
    unfold total
    simp only
    rw [gSweep_sum hn, gSweep_sum hn]
    congr 2
    apply List.map_congr_left
    intro s hs
    exact iter_stationary hr hn V N (N + 1) (by omega) s hs (hN s hs)
  rw [this]; simpa using hth

/-- With a zero threshold, starting above the replacements, with the right first value: the result is stationary. -/
theorem loop_fix_down (hm : Mono B S) (hn : S.Nodup) {V : Nat → R} (h0 : ∀ s ∈ S, B V s ≤ V s)
    {v : R} (hv : v = (S.map V).sum) {k : Nat} {W : Nat → R}
    (h : untilSmall (fun V => gSweep B S (V, 0)) 0 k V v none = some W) :
    (∀ s ∈ S, B W s = W s) := by
  obtain ⟨j, rfl, hj⟩ := untilSmall_result _ _ _ _ _ (by intro d hd; cases hd) h
  have hsup : ∀ i, ∀ s ∈ S, B (iter (fun V => gSweep B S (V, 0)) V i) s ≤ iter (fun V => gSweep B S (V, 0)) V i s := by
    intro i
    induction i with
    | zero => exact h0
    | succ i ih => exact (gSweep_down hm (fun s hs => hs) _ 0 ih).2
  have htot : ∀ i, total (fun V => gSweep B S (V, 0)) V v i = (S.map (iter (fun V => gSweep B S (V, 0)) V i)).sum := by
    intro i
    cases i with
    | zero => exact hv
    | succ i => unfold total; simp only; rw [gSweep_sum hn]; simp [iter]
  rw [htot, htot] at hj
  have hz : (S.map (iter (fun V => gSweep B S (V, 0)) V (j + 1))).sum = (S.map (iter (fun V => gSweep B S (V, 0)) V j)).sum := by
    have := abs_nonpos_iff.1 hj
    linarith
  have hpt := sum_eq_of_le (gSweep_down hm (fun s hs => hs) _ 0 (hsup j)).1 hz
  have hfix := gSweep_fix hn _ 0 hpt
  intro s hs
  have h1 := hm.congr hpt s hs
  have h2 := hfix s hs
  have h3 := hpt s hs
  change B (gSweep B S (iter (fun V => gSweep B S (V, 0)) V j, 0)).1 s = (gSweep B S (iter (fun V => gSweep B S (V, 0)) V j, 0)).1 s
  rw [h1, h2, h3]

/-- The same from below, with non-positive values; the loop compares the first sum with zero. -/
theorem loop_fix_up (hm : Mono B S) (hn : S.Nodup)
    (hB : ∀ V : Nat → R, (∀ t ∈ S, V t ≤ 0) → ∀ s ∈ S, B V s ≤ 0) {V : Nat → R} (hV : ∀ t ∈ S, V t ≤ 0)
    (h0 : ∀ s ∈ S, V s ≤ B V s) {k : Nat} {W : Nat → R}
    (h : untilSmall (fun V => gSweep B S (V, 0)) 0 k V 0 none = some W) :
    (∀ s ∈ S, B W s = W s) ∧ (∀ s ∈ S, V s ≤ W s) ∧ ∀ s ∈ S, W s ≤ 0 := by
  obtain ⟨j, rfl, hj⟩ := untilSmall_result _ _ _ _ _ (by intro d hd; cases hd) h
  have hsub : ∀ i, (∀ s ∈ S, iter (fun V => gSweep B S (V, 0)) V i s ≤ B (iter (fun V => gSweep B S (V, 0)) V i) s) ∧
      (∀ s ∈ S, V s ≤ iter (fun V => gSweep B S (V, 0)) V i s) ∧
      ∀ s ∈ S, iter (fun V => gSweep B S (V, 0)) V i s ≤ 0 := by
    intro i
    induction i with
    | zero => exact ⟨h0, fun s _ => le_refl _, hV⟩
    | succ i ih =>
      have := gSweep_up hm (fun s hs => hs) _ 0 ih.1
      exact ⟨this.2, fun s hs => (ih.2.1 s hs).trans (this.1 s hs), gSweep_nonpos hB (fun s hs => hs) _ 0 ih.2.2⟩
  have htot : ∀ i, total (fun V => gSweep B S (V, 0)) V 0 (i + 1) =
      (S.map (iter (fun V => gSweep B S (V, 0)) V (i + 1))).sum := by
    intro i
    unfold total; simp only; rw [gSweep_sum hn]; simp [iter]
  refine ⟨?_, (hsub (j + 1)).2.1, (hsub (j + 1)).2.2⟩
  cases j with
  | zero =>
    rw [htot] at hj
    have hz : (S.map (iter (fun V => gSweep B S (V, 0)) V (0 + 1))).sum = (S.map (fun _ => (0 : R))).sum := by
      have := abs_nonpos_iff.1 hj
      unfold total at this
      have e : (S.map (fun _ => (0 : R))).sum = 0 := by
        clear * -
        induction S with
        | nil => rfl
        | cons s ss ih => simp only [List.map_cons, List.sum_cons, ih, add_zero]
      rw [e]; linarith
    have hpt := sum_eq_of_le (hsub (0 + 1)).2.2 hz
    intro s hs
    apply le_antisymm
    · rw [hpt s hs]; exact hB _ (hsub (0 + 1)).2.2 s hs
    · exact (hsub (0 + 1)).1 s hs
  | succ j =>
    rw [htot, htot] at hj
    have hz : (S.map (iter (fun V => gSweep B S (V, 0)) V (j + 1))).sum =
        (S.map (iter (fun V => gSweep B S (V, 0)) V (j + 1 + 1))).sum := by
      have := abs_nonpos_iff.1 hj
      linarith
    have hpt := sum_eq_of_le (gSweep_up hm (fun s hs => hs) _ 0 (hsub (j + 1)).1).1 hz
    have hfix := gSweep_fix hn _ 0 (fun t ht => (hpt t ht).symm)
    intro s hs
    have h1 := hm.congr hpt s hs
    have h2 := hfix s hs
    have h3 := hpt s hs
    change B (gSweep B S (iter (fun V => gSweep B S (V, 0)) V (j + 1), 0)).1 s =
      (gSweep B S (iter (fun V => gSweep B S (V, 0)) V (j + 1), 0)).1 s
    rw [← h1, h2, h3]

end MM.Learn
