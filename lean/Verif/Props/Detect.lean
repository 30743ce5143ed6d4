import Verif.Model.Detect
import Verif.Props.LineAlgebra
import Mathlib.Data.List.Chain

/-!
# C51: defects of tracks; C58: duplicate filtering
-/

set_option autoImplicit false
set_option linter.unusedSectionVars false

namespace MM.Detect

open MM.Line

variable {P : Type} [DecidableEq P]

/-! ### Removal -/

theorem mem_toRemove (ds : List Defects) : ∀ (i j : Nat), j ∈ toRemove i ds ↔ ∃ k d, j = i + k ∧ ds[k]? = some d ∧ d.none = false := by
  induction ds with
  | nil => intro i j; simp [toRemove]
  | cons d ds ih =>
    intro i j
    have hrec : j ∈ toRemove (i + 1) ds ↔ ∃ k e, j = i + (k + 1) ∧ (d :: ds)[k + 1]? = some e ∧ e.none = false := by
      rw [ih]
      simp only [List.getElem?_cons_succ]
      constructor
      · rintro ⟨k, e, rfl, h⟩; exact ⟨k, e, by omega, h⟩
      · rintro ⟨k, e, rfl, h⟩; exact ⟨k, e, by omega, h⟩
    rw [toRemove]
    by_cases hd : d.none = true
    · rw [if_pos hd, hrec]
      constructor
      · rintro ⟨k, e, h⟩; exact ⟨k + 1, e, h⟩
      · rintro ⟨k, e, hj, hk, he⟩
        cases k with
        | zero =>
          simp only [List.getElem?_cons_zero, Option.some.injEq] at hk
          subst hk
          rw [hd] at he
          cases he
        | succ k => exact ⟨k, e, hj, hk, he⟩
    · rw [if_neg hd, List.mem_cons, hrec]
      constructor
      · rintro (rfl | ⟨k, e, h⟩)
        · exact ⟨0, d, by omega, rfl, by simpa using hd⟩
        · exact ⟨k + 1, e, h⟩
      · rintro ⟨k, e, hj, hk, he⟩
        cases k with
        | zero => exact Or.inl (by omega)
        | succ k => exact Or.inr ⟨k, e, hj, hk, he⟩

theorem toRemove_ge (ds : List Defects) : ∀ i, (∀ j ∈ toRemove i ds, i ≤ j) ∧ (toRemove i ds).Pairwise (· < ·) := by
  induction ds with
  | nil => intro i; simp [toRemove]
  | cons d ds ih =>
    intro i
    obtain ⟨h1, h2⟩ := ih (i + 1)
    rw [toRemove]
    by_cases hd : d.none = true
    · rw [if_pos hd]
      exact ⟨fun j hj => by have := h1 j hj; omega, h2⟩
    · rw [if_neg hd]
      refine ⟨?_, List.pairwise_cons.2 ⟨fun j hj => by have := h1 j hj; omega, h2⟩⟩
      intro j hj
      rcases List.mem_cons.1 hj with rfl | hj
      · exact Nat.le_refl _
      · have := h1 j hj; omega

/-- **C51**, removal: exactly the points whose set contains `none` survive, in their order, for any sets of defects. -/
theorem remove_partial (l : List P) (ds : List Defects) (h : ds.length = l.length) :
    removeDefects l ds = ((l.zip ds).filter (fun p => p.2.none)).map Prod.fst := by
  unfold removeDefects
  rw [erase_keeps_others l (toRemove_ge ds 0).2]
  have key : ∀ (l : List P) (ds es : List Defects) (n : Nat), es.length = l.length → (∀ k, es[k]? = ds[n + k]?) →
      ((l.zipIdx n).filter (fun p => decide (p.2 ∉ toRemove 0 ds))).map Prod.fst = ((l.zip es).filter (fun p => p.2.none)).map Prod.fst := by
    intro l
    induction l with
    | nil => intro ds es n _ _; simp
    | cons a l ih =>
      intro ds es n hl hes
      cases es with
      | nil => simp at hl
      | cons e es =>
        have he : ds[n]? = some e := by rw [← Nat.add_zero n, ← hes 0]; rfl
        have hmem : n ∉ toRemove 0 ds ↔ e.none = true := by
          rw [mem_toRemove]
          constructor
          · intro hn
            by_contra hc
            exact hn ⟨n, e, by omega, he, by simpa using hc⟩
          · rintro hn ⟨k, d, hk, hd, hf⟩
            have : k = n := by omega
            subst this
            rw [he] at hd
            cases hd
            rw [hn] at hf
            cases hf
        have hrest := ih ds es (n + 1) (by simpa using hl) (fun k => by
          have := hes (k + 1)
          rw [List.getElem?_cons_succ] at this
          rw [this]
          congr 1
          omega)
        rw [List.zipIdx_cons, List.zip_cons_cons, List.filter_cons, List.filter_cons]
        by_cases hn : e.none = true
        · rw [if_pos (by simpa using hmem.2 hn), if_pos hn, List.map_cons, List.map_cons, hrest]
        · rw [if_neg (by simpa using fun hc => hn (hmem.1 hc)), if_neg hn, hrest]
  exact key l ds ds 0 h (fun k => by rw [Nat.zero_add])

/-! ### Duplicates -/

theorem equalLoop_spec (l : List P) : ∀ (fuel from_ : Nat) (ds : List Defects), l.length ≤ from_ + fuel + 1 → ds.length = l.length →
    (equalLoop l fuel from_ ds).length = l.length ∧
      ∀ i (d : Defects), (ds : List Defects)[i]? = some d → (equalLoop l fuel from_ ds)[i]? =
        some { d with equal := d.equal || (decide (from_ < i) && equalAt l (i - 1) i) } := by
  intro fuel
  induction fuel with
  | zero =>
    intro from_ ds h hl
    refine ⟨hl, fun i d hi => ?_⟩
    have hi' : i < ds.length := (List.getElem?_eq_some_iff.1 hi).1
    have : ¬ from_ < i := by omega
    rw [equalLoop, hi]
    simp [this]
  | succ fuel ih =>
    intro from_ ds h hl
    rw [equalLoop]
    by_cases hf : from_ + 1 < l.length
    · rw [if_pos hf]
      have hl' : (if equalAt l from_ (from_ + 1) then ds.modify (from_ + 1) Defects.addEqual else ds).length = l.length := by
        split <;> simp [hl]
      obtain ⟨h1, h2⟩ := ih (from_ + 1) (if equalAt l from_ (from_ + 1) then ds.modify (from_ + 1) Defects.addEqual else ds) (by omega) hl'
      refine ⟨h1, fun i d hi => ?_⟩
      by_cases he : equalAt l from_ (from_ + 1) = true
      · by_cases hi1 : i = from_ + 1
        · subst hi1
          rw [h2 _ d.addEqual (by rw [if_pos he, List.getElem?_modify]; simp [hi])]
          simp [Defects.addEqual, he]
        · rw [h2 i d (by rw [if_pos he, List.getElem?_modify]; simp [hi, Ne.symm hi1])]
          have : from_ + 1 < i ↔ from_ < i := by omega
          simp [this]
      · rw [h2 i d (by rw [if_neg he]; exact hi)]
        by_cases hi1 : i = from_ + 1
        · subst hi1
          simp [he]
        · have : from_ + 1 < i ↔ from_ < i := by omega
          simp [this]
    · rw [if_neg hf]
      refine ⟨hl, fun i d hi => ?_⟩
      have hi' : i < ds.length := (List.getElem?_eq_some_iff.1 hi).1
      have : ¬ from_ < i := by omega
      rw [hi]
      simp [this]

/-- The sets before turns are looked for. -/
def start (l : List P) (duplicates : Bool) : List Defects :=
  if duplicates then equalLoop l l.length 0 (List.replicate l.length ⟨true, false, false⟩) else List.replicate l.length ⟨true, false, false⟩

theorem start_spec (l : List P) (duplicates : Bool) : (start l duplicates).length = l.length ∧
    ∀ i, i < l.length → (start l duplicates)[i]? = some ⟨true, duplicates && (decide (0 < i) && equalAt l (i - 1) i), false⟩ := by
  unfold start
  cases duplicates with
  | false => simp +contextual
  | true =>
    obtain ⟨h1, h2⟩ := equalLoop_spec l l.length 0 (List.replicate l.length ⟨true, false, false⟩) (by omega) (by simp)
    refine ⟨h1, fun i hi => ?_⟩
    have := h2 i ⟨true, false, false⟩ (by simp [hi])
    simpa using this

/-! ### Turns -/

theorem skip_spec (ds : List Defects) : ∀ (fuel to_ : Nat), ds.length ≤ to_ + fuel → to_ ≤ ds.length →
    to_ ≤ skip ds fuel to_ ∧ skip ds fuel to_ ≤ ds.length ∧
      (∀ j d, to_ ≤ j → j < skip ds fuel to_ → ds[j]? = some d → d.skipped = true) ∧
      (∀ d, ds[skip ds fuel to_]? = some d → d.skipped = false) := by
  intro fuel
  induction fuel with
  | zero =>
    intro to_ h h'
    rw [skip]
    refine ⟨Nat.le_refl _, h', fun j d h1 h2 => by omega, fun d hd => ?_⟩
    have := (List.getElem?_eq_some_iff.1 hd).1
    omega
  | succ fuel ih =>
    intro to_ h h'
    rw [skip]
    cases hd : ds[to_]? with
    | none =>
      simp only
      exact ⟨Nat.le_refl _, h', fun j d h1 h2 => by omega, fun d hd' => by rw [hd] at hd'; cases hd'⟩
    | some d =>
      simp only
      have hlt := (List.getElem?_eq_some_iff.1 hd).1
      by_cases hs : d.skipped = true
      · rw [if_pos hs]
        obtain ⟨h1, h2, h3, h4⟩ := ih (to_ + 1) (by omega) (by omega)
        refine ⟨by omega, h2, fun j e hj1 hj2 he => ?_, h4⟩
        by_cases hj : j = to_
        · subst hj
          rw [hd] at he
          cases he
          exact hs
        · exact h3 j e (by omega) hj2 he
      · rw [if_neg hs]
        refine ⟨Nat.le_refl _, h', fun j d h1 h2 => by omega, fun e he => ?_⟩
        rw [hd] at he
        cases he
        simpa using hs

/-- A point that is no defect. -/
def Good (ds : List Defects) (i : Nat) : Prop := ∃ d, ds[i]? = some d ∧ d.equal = false ∧ d.forwardBackward = false

/-- `j` is the last good point before `i`. -/
def LastGood (ds : List Defects) (j i : Nat) : Prop := j < i ∧ Good ds j ∧ ∀ k, j < k → k < i → ¬ Good ds k

/-- What is known of the sets `ds` between the rounds, started with `ds₀`. -/
structure Inv (turn : P → P → P → Bool) (l : List P) (ds₀ : List Defects) (from_ to_ : Nat) (ds : List Defects) : Prop where
  len : ds.length = l.length
  same : ∀ (i : Nat) (d : Defects), ds[i]? = some d → ∃ b, ds₀[i]? = some { d with forwardBackward := b }
  lt : from_ < to_
  good : from_ < l.length → Good ds from_
  between : ∀ (k : Nat), from_ < k → k < to_ → ¬ Good ds k
  marked : ∀ (i : Nat) (d : Defects), ds[i]? = some d → d.forwardBackward = true →
    i ≤ to_ ∧ d.equal = false ∧ ∃ j, LastGood ds j i ∧ forwardBackward turn l j i = true
  unmarked : ∀ (i : Nat) (d : Defects), i < to_ → ds[i]? = some d → d.equal = false → d.forwardBackward = false →
    ∀ j, LastGood ds j i → forwardBackward turn l j i = false

theorem skipped_iff (d : Defects) : d.skipped = true ↔ ¬ (d.equal = false ∧ d.forwardBackward = false) := by
  obtain ⟨a, b, c⟩ := d
  cases b <;> cases c <;> simp [Defects.skipped]

theorem good_modify {ds : List Defects} {t i : Nat} (h : i ≠ t) :
    Good (ds.modify t Defects.addForwardBackward) i ↔ Good ds i := by
  unfold Good
  rw [List.getElem?_modify]
  simp [Ne.symm h]

theorem lastGood_modify {ds : List Defects} {t j i : Nat} (h : i ≤ t) :
    LastGood (ds.modify t Defects.addForwardBackward) j i ↔ LastGood ds j i := by
  unfold LastGood
  constructor
  · rintro ⟨h1, h2, h3⟩
    exact ⟨h1, (good_modify (by omega)).1 h2, fun k hk1 hk2 hg => h3 k hk1 hk2 ((good_modify (by omega)).2 hg)⟩
  · rintro ⟨h1, h2, h3⟩
    exact ⟨h1, (good_modify (by omega)).2 h2, fun k hk1 hk2 hg => h3 k hk1 hk2 ((good_modify (by omega)).1 hg)⟩

theorem lastGood_unique {ds : List Defects} {j j' i : Nat} (h : LastGood ds j i) (h' : LastGood ds j' i) : j = j' := by
  by_contra hne
  rcases Nat.lt_or_gt_of_ne hne with hlt | hlt
  · exact h.2.2 j' hlt h'.1 h'.2.1
  · exact h'.2.2 j hlt h.1 h.2.1

theorem forwardBackward_range {turn : P → P → P → Bool} {l : List P} {i j : Nat} (h : forwardBackward turn l i j = true) :
    ∃ p a b c, i = p + 1 ∧ l[p]? = some a ∧ l[p + 1]? = some b ∧ l[j]? = some c ∧ turn a b c = true := by
  unfold forwardBackward at h
  cases i with
  | zero => cases h
  | succ p =>
    simp only at h
    cases ha : l[p]? with
    | none => rw [ha] at h; cases h
    | some a =>
      cases hb : l[p + 1]? with
      | none => rw [ha, hb] at h; cases h
      | some b =>
        cases hc : l[j]? with
        | none => rw [ha, hb, hc] at h; cases h
        | some c =>
          rw [ha, hb, hc] at h
          exact ⟨p, a, b, c, rfl, ha, hb, rfl, h⟩

section
variable {turn : P → P → P → Bool} {l : List P} {ds₀ ds : List Defects} {from_ to_ : Nat}

/-- The position found after skipping. -/
theorem Inv.skip (h : Inv turn l ds₀ from_ to_ ds) (ht : to_ < l.length) :
    to_ ≤ skip ds l.length to_ ∧ skip ds l.length to_ ≤ l.length ∧
      (∀ k, from_ < k → k < skip ds l.length to_ → ¬ Good ds k) ∧
      (skip ds l.length to_ < l.length → Good ds (skip ds l.length to_)) ∧
      (from_ < l.length → LastGood ds from_ (skip ds l.length to_)) ∧
      ∀ (k : Nat) (d : Defects), to_ ≤ k → k < skip ds l.length to_ → ds[k]? = some d → d.skipped = true := by
  have hlen := h.len
  obtain ⟨h1, h2, h3, h4⟩ := skip_spec ds l.length to_ (by omega) (by omega)
  have hb : ∀ k, from_ < k → k < Detect.skip ds l.length to_ → ¬ Good ds k := by
    intro k hk1 hk2
    by_cases hk : k < to_
    · exact h.between k hk1 hk
    · rintro ⟨d, hd, he, hf⟩
      have := h3 k d (by omega) hk2 hd
      rw [skipped_iff] at this
      exact this ⟨he, hf⟩
  refine ⟨h1, by omega, hb, ?_, fun hf => ⟨by have := h.lt; omega, h.good hf, hb⟩, h3⟩
  intro hlt
  have hd : ∃ d, ds[Detect.skip ds l.length to_]? = some d := ⟨_, List.getElem?_eq_getElem (by omega)⟩
  obtain ⟨d, hd⟩ := hd
  have := h4 d hd
  refine ⟨d, hd, ?_⟩
  by_contra hc
  rw [(skipped_iff d).2 hc] at this
  cases this

theorem Inv.mark (h : Inv turn l ds₀ from_ to_ ds) (ht : to_ < l.length)
    (hf : forwardBackward turn l from_ (Detect.skip ds l.length to_) = true) :
    Inv turn l ds₀ from_ (Detect.skip ds l.length to_) (ds.modify (Detect.skip ds l.length to_) Defects.addForwardBackward) ∧
      Detect.skip ds l.length to_ < l.length := by
  obtain ⟨h1, h2, h3, h4, h5, h6⟩ := h.skip ht
  generalize Detect.skip ds l.length to_ = t at *
  obtain ⟨p, a, b, c, hp, _, hb, hc, _⟩ := forwardBackward_range hf
  have htlt : t < l.length := (List.getElem?_eq_some_iff.1 hc).1
  have hflt : from_ < l.length := by rw [hp]; exact (List.getElem?_eq_some_iff.1 hb).1
  have hlt := h.lt
  obtain ⟨dt, hdt, het, hft⟩ := h4 htlt
  refine ⟨⟨by simp [h.len], ?_, by omega, fun hf' => (good_modify (by omega)).2 (h.good hf'), ?_, ?_, ?_⟩, htlt⟩
  · intro i d hi
    rw [List.getElem?_modify] at hi
    by_cases hti : t = i
    · subst hti
      rw [hdt] at hi
      simp only [if_true, Option.map_eq_map, Option.map_some, Option.some.injEq] at hi
      subst hi
      obtain ⟨b, hb⟩ := h.same t dt hdt
      exact ⟨b, hb⟩
    · have hi' : ds[i]? = some d := by simpa [hti] using hi
      exact h.same i d hi'
  · intro k hk1 hk2 hg
    exact h3 k hk1 hk2 ((good_modify (by omega)).1 hg)
  · intro i d hi hfb
    rw [List.getElem?_modify] at hi
    by_cases hti : t = i
    · subst hti
      rw [hdt] at hi
      simp only [if_true, Option.map_eq_map, Option.map_some, Option.some.injEq] at hi
      subst hi
      exact ⟨Nat.le_refl _, het, from_, (lastGood_modify (Nat.le_refl _)).2 (h5 hflt), hf⟩
    · have hi' : ds[i]? = some d := by simpa [hti] using hi
      obtain ⟨g1, g2, j, g3, g4⟩ := h.marked i d hi' hfb
      exact ⟨by omega, g2, j, (lastGood_modify (by omega)).2 g3, g4⟩
  · intro i d hit hi he hfb j hj
    rw [lastGood_modify (by omega)] at hj
    have hi' : ds[i]? = some d := by
      rw [List.getElem?_modify] at hi
      simpa [show t ≠ i by omega] using hi
    by_cases hito : i < to_
    · exact h.unmarked i d hito hi' he hfb j hj
    · have := h6 i d (by omega) hit hi'
      rw [skipped_iff] at this
      exact absurd ⟨he, hfb⟩ this

theorem Inv.pass (h : Inv turn l ds₀ from_ to_ ds) (ht : to_ < l.length)
    (hf : forwardBackward turn l from_ (Detect.skip ds l.length to_) = false) :
    Inv turn l ds₀ (nextFrom from_ (Detect.skip ds l.length to_)) (Detect.skip ds l.length to_ + 1) ds := by
  obtain ⟨h1, h2, h3, h4, h5, h6⟩ := h.skip ht
  generalize Detect.skip ds l.length to_ = t at *
  have hlt := h.lt
  have hnext : nextFrom from_ t = t := by
    unfold nextFrom
    split <;> omega
  rw [hnext]
  refine ⟨h.len, h.same, by omega, h4, fun k hk1 hk2 => by omega, ?_, ?_⟩
  · intro i d hi hfb
    obtain ⟨g1, g2⟩ := h.marked i d hi hfb
    exact ⟨by omega, g2⟩
  · intro i d hit hi he hfb j hj
    by_cases hito : i < to_
    · exact h.unmarked i d hito hi he hfb j hj
    · by_cases hi1 : i < t
      · have := h6 i d (by omega) hi1 hi
        rw [skipped_iff] at this
        exact absurd ⟨he, hfb⟩ this
      · have hit' : i = t := by omega
        subst hit'
        have hfl : from_ < l.length := by omega
        rw [lastGood_unique hj (h5 hfl)]
        exact hf

/-- Rounds left at most. -/
def rounds (l : List P) (to_ : Nat) (ds : List Defects) : Nat :=
  2 * (l.length - to_) + (match ds[to_]? with | some d => if d.skipped then 0 else 1 | none => 0)

theorem turnLoop_spec (fuel : Nat) : ∀ (from_ to_ : Nat) (ds : List Defects), Inv turn l ds₀ from_ to_ ds → rounds l to_ ds ≤ fuel →
    ∃ ds' f' t', turnLoop turn l fuel from_ to_ ds = .ok ds' ∧ Inv turn l ds₀ f' t' ds' ∧ l.length ≤ t' := by
  induction fuel with
  | zero =>
    intro from_ to_ ds h hr
    have : l.length ≤ to_ := by
      unfold rounds at hr
      omega
    exact ⟨ds, from_, to_, by rw [turnLoop, if_neg (by omega)], h, this⟩
  | succ fuel ih =>
    intro from_ to_ ds h hr
    rw [turnLoop]
    by_cases ht : to_ < l.length
    · rw [if_pos ht]
      obtain ⟨h1, h2, h3, h4, h5, h6⟩ := h.skip ht
      by_cases hf : forwardBackward turn l from_ (Detect.skip ds l.length to_) = true
      · rw [if_pos hf]
        obtain ⟨hm, hlt⟩ := h.mark ht hf
        apply ih _ _ _ hm
        obtain ⟨dt, hdt, het, hft⟩ := h4 hlt
        unfold rounds at hr ⊢
        have e1 : (ds.modify (Detect.skip ds l.length to_) Defects.addForwardBackward)[Detect.skip ds l.length to_]? =
            some dt.addForwardBackward := by
          rw [List.getElem?_modify]
          simp [hdt]
        rw [e1]
        simp only [Defects.addForwardBackward, Defects.skipped, Bool.true_or, if_true]
        by_cases hs : Detect.skip ds l.length to_ = to_
        · rw [hs] at hdt ⊢
          rw [hdt] at hr
          simp only [Defects.skipped, het, hft, Bool.or_false, Bool.false_eq_true, if_false] at hr
          omega
        · omega
      · rw [if_neg hf]
        apply ih _ _ _ (h.pass ht (by simpa using hf))
        have : ∀ x : Option Defects, (match x with | some d => if d.skipped then 0 else 1 | none => 0) ≤ 1 := by
          intro x
          cases x with
          | none => simp
          | some d => simp only; split <;> omega
        have := this ds[Detect.skip ds l.length to_ + 1]?
        unfold rounds at hr ⊢
        omega
    · rw [if_neg ht]
      exact ⟨ds, from_, to_, rfl, h, by omega⟩
end

/-! ### Detection -/

theorem start_inv (turn : P → P → P → Bool) (l : List P) (duplicates : Bool) :
    Inv turn l (start l duplicates) 0 1 (start l duplicates) := by
  obtain ⟨hlen, hs⟩ := start_spec l duplicates
  have hget : ∀ (i : Nat) (d : Defects), (start l duplicates)[i]? = some d → d.forwardBackward = false ∧ (i = 0 → d.equal = false) := by
    intro i d hi
    have hlt := (List.getElem?_eq_some_iff.1 hi).1
    rw [hs i (by omega)] at hi
    cases hi
    refine ⟨rfl, ?_⟩
    rintro rfl
    simp
  refine ⟨hlen, fun i d hi => ⟨d.forwardBackward, hi⟩, by omega, ?_, fun k hk1 hk2 => by omega, ?_, ?_⟩
  · intro h
    exact ⟨_, hs 0 h, by simp, rfl⟩
  · intro i d hi hf
    rw [(hget i d hi).1] at hf
    cases hf
  · intro i d hi _ _ _ j hj
    have := hj.1
    omega

theorem detect_eq (turn : P → P → P → Bool) (l : List P) (duplicates turns : Bool) :
    detect turn l duplicates turns =
      (if turns then turnLoop turn l (2 * l.length) 0 1 (start l duplicates) else .ok (start l duplicates)).map (·.map Defects.eraseNone) := rfl

theorem eraseNone_eq {d : Defects} (h : d.none = true) : d.eraseNone = { d with none := false } := by simp [Defects.eraseNone, h]

theorem equalAt_iff (l : List P) (i : Nat) : (decide (0 < i) && equalAt l (i - 1) i) = true ↔ ∃ j a, i = j + 1 ∧ l[j]? = some a ∧ l[i]? = some a := by
  cases i with
  | zero => simp
  | succ j =>
    have hadd : j + 1 - 1 = j := by omega
    rw [hadd]
    unfold equalAt
    constructor
    · intro h
      cases ha : l[j]? with
      | none => simp [ha] at h
      | some a =>
        cases hb : l[j + 1]? with
        | none => simp [ha, hb] at h
        | some b =>
          simp [ha, hb] at h
          subst h
          exact ⟨j, a, rfl, ha, rfl⟩
    · rintro ⟨j', a, hj, ha, hb⟩
      have : j' = j := by omega
      subst this
      simp [ha, hb]

/-- **C51**, detection: it ends for every line; a point counts as duplicate exactly if it equals the one before; a point that is no
duplicate counts as going backward exactly if the way from the last good point turns around, relative to the step to that point. -/
theorem detect_partial (turn : P → P → P → Bool) (l : List P) (duplicates turns : Bool) :
    ∃ ds, detect turn l duplicates turns = .ok ds ∧ ds.length = l.length ∧ ∀ (i : Nat) (d : Defects), ds[i]? = some d →
      (d.equal = true ↔ duplicates = true ∧ ∃ j a, i = j + 1 ∧ l[j]? = some a ∧ l[i]? = some a) ∧
      (d.forwardBackward = true ↔ turns = true ∧ d.equal = false ∧
        ∃ j a b c, LastGood ds (j + 1) i ∧ l[j]? = some a ∧ l[j + 1]? = some b ∧ l[i]? = some c ∧ turn a b c = true) := by
  rw [detect_eq]
  have hloop : ∃ ds f t, (if turns then turnLoop turn l (2 * l.length) 0 1 (start l duplicates) else .ok (start l duplicates)) = .ok ds ∧
      Inv turn l (start l duplicates) f t ds ∧ (turns = true → l.length ≤ t) ∧ (turns = false → ds = start l duplicates) := by
    cases turns with
    | false => exact ⟨_, 0, 1, rfl, start_inv turn l duplicates, by simp, by simp⟩
    | true =>
      obtain ⟨ds, f, t, h1, h2, h3⟩ := turnLoop_spec (2 * l.length) 0 1 (start l duplicates) (start_inv turn l duplicates) (by
        unfold rounds
        cases hd : (start l duplicates)[1]? with
        | none => simp only; omega
        | some d =>
          have := (List.getElem?_eq_some_iff.1 hd).1
          have := (start_spec l duplicates).1
          simp only
          split <;> omega)
      exact ⟨ds, f, t, h1, h2, fun _ => h3, by simp⟩
  obtain ⟨ds, f, t, hds, hinv, ht, hs⟩ := hloop
  refine ⟨ds.map Defects.eraseNone, by rw [hds]; rfl, by simp [hinv.len], ?_⟩
  obtain ⟨slen, sget⟩ := start_spec l duplicates
  have hnone : ∀ (i : Nat) (d : Defects), ds[i]? = some d → d.none = true ∧
      d.equal = (duplicates && (decide (0 < i) && equalAt l (i - 1) i)) := by
    intro i d hi
    obtain ⟨b, hb⟩ := hinv.same i d hi
    have hlt := (List.getElem?_eq_some_iff.1 hi).1
    rw [hinv.len] at hlt
    rw [sget i hlt] at hb
    simp only [Option.some.injEq, Defects.mk.injEq] at hb
    exact ⟨hb.1.symm, hb.2.1.symm⟩
  have hgood : ∀ i, Good (ds.map Defects.eraseNone) i ↔ Good ds i := by
    intro i
    unfold Good
    rw [List.getElem?_map]
    constructor
    · rintro ⟨d, hd, h1, h2⟩
      rw [Option.map_eq_some_iff] at hd
      obtain ⟨e, he, rfl⟩ := hd
      rw [eraseNone_eq (hnone i e he).1] at h1 h2
      exact ⟨e, he, h1, h2⟩
    · rintro ⟨d, hd, h1, h2⟩
      exact ⟨d.eraseNone, by rw [hd]; rfl, by rw [eraseNone_eq (hnone i d hd).1]; exact h1, by rw [eraseNone_eq (hnone i d hd).1]; exact h2⟩
  have hlast : ∀ j i, LastGood (ds.map Defects.eraseNone) j i ↔ LastGood ds j i := by
    intro j i
    unfold LastGood
    simp only [hgood]
  intro i d hi
  rw [List.getElem?_map, Option.map_eq_some_iff] at hi
  obtain ⟨e, he, rfl⟩ := hi
  obtain ⟨hn, heq⟩ := hnone i e he
  have hlt : i < l.length := by
    have := (List.getElem?_eq_some_iff.1 he).1
    rwa [hinv.len] at this
  rw [eraseNone_eq hn]
  simp only
  constructor
  · rw [heq, Bool.and_eq_true, equalAt_iff]
  · simp only [hlast]
    constructor
    · intro hf
      obtain ⟨g1, g2, j, g3, g4⟩ := hinv.marked i e he hf
      obtain ⟨p, a, b, c, rfl, ha, hb, hc, hturn⟩ := forwardBackward_range g4
      refine ⟨?_, g2, p, a, b, c, g3, ha, hb, hc, hturn⟩
      by_contra hturns
      have hs := hs (by simpa using hturns)
      rw [hs, sget i hlt] at he
      cases he
      cases hf
    · rintro ⟨hturns, heq', p, a, b, c, hl, ha, hb, hc, hturn⟩
      by_contra hf
      have := hinv.unmarked i e (by have := ht hturns; omega) he heq' (by simpa using hf) (p + 1) hl
      simp [forwardBackward, ha, hb, hc, hturn] at this

/-- **C51 fails**: in the result no set contains `none`, so that removing the defects removes every point of every line. -/
theorem remove_all_fails (turn : P → P → P → Bool) (l : List P) (duplicates turns : Bool) :
    ∃ ds, detect turn l duplicates turns = .ok ds ∧ removeDefects l ds = [] := by
  obtain ⟨ds, hds, hlen, _⟩ := detect_partial turn l duplicates turns
  refine ⟨ds, hds, ?_⟩
  rw [remove_partial l ds hlen]
  have hnone : ∀ d ∈ ds, d.none = false := by
    have hmap : ∃ es : List Defects, ds = es.map Defects.eraseNone := by
      rw [detect_eq] at hds
      generalize (if turns then turnLoop turn l (2 * l.length) 0 1 (start l duplicates) else .ok (start l duplicates)) = x at hds
      cases x with
      | ok es => exact ⟨es, by simpa using hds.symm⟩
      | throws => cases hds
      | ub => cases hds
    obtain ⟨es, rfl⟩ := hmap
    intro d hd
    obtain ⟨e, _, rfl⟩ := List.mem_map.1 hd
    unfold Defects.eraseNone
    split
    · rfl
    · rename_i h
      simp only [Bool.or_eq_true, not_or, Bool.not_eq_true] at h
      exact h.1.1
  rw [List.map_eq_nil_iff, List.filter_eq_nil_iff]
  rintro ⟨p, d⟩ hpd
  simp [hnone d (List.of_mem_zip hpd).2]

example : detect (fun _ _ _ => false) [1, 1, 2] true false =
    .ok [⟨false, false, false⟩, ⟨false, true, false⟩, ⟨false, false, false⟩] ∧
    removeDefects [1, 1, 2] [⟨true, false, false⟩, ⟨false, true, false⟩, ⟨true, false, false⟩] = [1, 2] := by decide

/-- Points on a line: 5, 6 going forward, 2 back, 3 back with respect to 6 but not 2. -/
example : detect (fun a b c : Int => decide ((b - a) * (c - b) < 0)) [5, 6, 2, 3, 7] false true =
    .ok [⟨false, false, false⟩, ⟨false, false, false⟩, ⟨false, false, true⟩, ⟨false, false, true⟩, ⟨false, false, false⟩] := by decide

/-! ### Duplicate filtering -/

/-- **C58**, of what is left: the track that is matched has no adjacent equal points if the given one has none.  Missing: tracks with
adjacent equal points (`filter_fails`). -/
theorem filter_partial (turn : P → P → P → Bool) (track : List P) (h : track.IsChain (· ≠ ·)) :
    ∃ out rest, setTrack turn true track = .ok (out, rest) ∧ out.IsChain (· ≠ ·) ∧ out = track := by
  exact ⟨track, [], rfl, h, rfl⟩

/-- **C58 fails** for every other track: with and without filtering it is matched as it is. -/
theorem filter_fails (turn : P → P → P → Bool) (filter : Bool) (track : List P) :
    setTrack turn filter track = .ok (track, []) ∧ (¬ track.IsChain (· ≠ ·) →
      ∃ out rest, setTrack turn filter track = .ok (out, rest) ∧ ¬ out.IsChain (· ≠ ·)) := by
  have h : setTrack turn filter track = .ok (track, []) := by cases filter <;> rfl
  exact ⟨h, fun hn => ⟨track, [], h, hn⟩⟩

example : ¬ [1, 1, 2].IsChain (· ≠ ·) ∧ [1, 2, 1].IsChain (· ≠ ·) := by simp

end MM.Detect
