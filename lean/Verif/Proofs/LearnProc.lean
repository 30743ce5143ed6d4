import Verif.Proofs.Learn

/-! # Learners on acyclic processes (helper lemmas for C16, C17) -/

set_option autoImplicit false
set_option linter.unusedSectionVars false

namespace MM.Learn

variable {R : Type} [CommRing R] [LinearOrder R] [IsStrictOrderedRing R]

/-- Every step that does not end the episode lowers the rank. -/
def Acyclic (p : Proc R) (rank : Nat → Nat) : Prop :=
  ∀ s a, a ∈ p.actions s → p.done s a = false → rank (p.next s a) < rank s

/-- Steps that do not end the episode stay inside. -/
def Closed (p : Proc R) (S : List Nat) : Prop :=
  ∀ s ∈ S, ∀ a ∈ p.actions s, p.done s a = false → p.next s a ∈ S

/-! ### Generated states -/

theorem visit_spec (p : Proc R) (s : Nat) (as : List Nat) : ∀ (states queue : List Nat),
    ∃ new, visit p s as (states, queue) = (states ++ new, queue ++ new) ∧
      (states.Nodup → (states ++ new).Nodup) ∧
      (∀ a ∈ as, p.done s a = false → p.next s a ∈ states ++ new) ∧
      ∀ x ∈ new, ∃ a ∈ as, p.done s a = false ∧ x = p.next s a := by
  induction as with
  | nil => intro states queue; exact ⟨[], by simp [visit]⟩
  | cons a as ih =>
    intro states queue
    unfold visit
    by_cases hc : p.done s a = false ∧ p.next s a ∉ states
    · rw [if_pos hc]
      obtain ⟨new, h1, h2, h3, h4⟩ := ih (states ++ [p.next s a]) (queue ++ [p.next s a])
      refine ⟨p.next s a :: new, by simp [h1], ?_, ?_, ?_⟩
      · intro hn
        have : (states ++ [p.next s a]).Nodup := by
          rw [List.nodup_append]
          refine ⟨hn, by simp, ?_⟩
          intro x hx y hy hxy
          simp at hy
          exact hc.2 (hy ▸ hxy ▸ hx)
        simpa using h2 this
      · intro b hb hd
        rcases List.mem_cons.1 hb with rfl | hb
        · simp
        · simpa using h3 b hb hd
      · intro x hx
        rcases List.mem_cons.1 hx with rfl | hx
        · exact ⟨a, by simp, hc.1, rfl⟩
        · obtain ⟨b, hb, h⟩ := h4 x hx
          exact ⟨b, by simp [hb], h⟩
    · rw [if_neg hc]
      obtain ⟨new, h1, h2, h3, h4⟩ := ih states queue
      refine ⟨new, h1, h2, ?_, ?_⟩
      · intro b hb hd
        rcases List.mem_cons.1 hb with rfl | hb
        · by_cases hm : p.next s b ∈ states
          · simp [hm]
          · exact absurd ⟨hd, hm⟩ hc
        · exact h3 b hb hd
      · intro x hx
        obtain ⟨b, hb, h⟩ := h4 x hx
        exact ⟨b, by simp [hb], h⟩

theorem genLoop_spec (p : Proc R) : ∀ (k : Nat) (states queue S : List Nat), states.Nodup →
    (∀ s ∈ queue, s ∈ states) →
    (∀ s ∈ states, s ∈ queue ∨ ∀ a ∈ p.actions s, p.done s a = false → p.next s a ∈ states) →
    genLoop p k states queue = some S → S.Nodup ∧ Closed p S ∧ ∀ s ∈ states, s ∈ S := by
  intro k
  induction k with
  | zero => intro states queue S _ _ _ h; cases h
  | succ k ih =>
    intro states queue S hn hq hc h
    cases queue with
    | nil =>
      simp only [genLoop, Option.some.injEq] at h
      subst h
      refine ⟨hn, ?_, fun s hs => hs⟩
      intro s hs
      rcases hc s hs with h | h
      · cases h
      · exact h
    | cons s queue =>
      simp only [genLoop] at h
      obtain ⟨new, h1, h2, h3, -⟩ := visit_spec p s (p.actions s) states queue
      rw [h1] at h
      have := ih (states ++ new) (queue ++ new) S (h2 hn) ?_ ?_ h
      · exact ⟨this.1, this.2.1, fun t ht => this.2.2 t (by simp [ht])⟩
      · intro t ht
        rcases List.mem_append.1 ht with ht | ht
        · have := hq t (by simp [ht]); simp [this]
        · simp [ht]
      · intro t ht
        by_cases hts : t = s
        · subst hts; exact .inr h3
        · rcases List.mem_append.1 ht with ht | ht
          · rcases hc t ht with h | h
            · rcases List.mem_cons.1 h with h | h
              · exact absurd h hts
              · exact .inl (by simp [h])
            · exact .inr (fun a ha hd => List.mem_append.2 (.inl (h a ha hd)))
          · exact .inl (by simp [ht])

theorem generate_spec {p : Proc R} {k start : Nat} {S : List Nat} (h : generate p k start = some S) :
    S.Nodup ∧ Closed p S ∧ start ∈ S := by
  have := genLoop_spec p k [start] [start] S (by simp) (by simp) (by simp) h
  exact ⟨this.1, this.2.1, this.2.2 start (by simp)⟩

theorem finite_closure {p : Proc R} {rank : Nat → Nat} (ha : Acyclic p rank) : ∀ n s, rank s < n →
    ∃ L, s ∈ L ∧ Closed p L := by
  intro n
  induction n with
  | zero => intro s h; omega
  | succ n ih =>
    intro s hs
    have key : ∀ as : List Nat, (∀ a ∈ as, a ∈ p.actions s) →
        ∃ L, Closed p L ∧ ∀ a ∈ as, p.done s a = false → p.next s a ∈ L := by
      intro as
      induction as with
      | nil => intro _; exact ⟨[], (fun t ht => by cases ht), by simp⟩
      | cons a as iha =>
        intro hsub
        obtain ⟨L, h1, h2⟩ := iha (fun b hb => hsub b (by simp [hb]))
        by_cases hd : p.done s a = false
        · obtain ⟨M, h3, h4⟩ := ih (p.next s a) (by have := ha s a (hsub a (by simp)) hd; omega)
          refine ⟨M ++ L, ?_, ?_⟩
          · intro t ht b hb hdb
            rcases List.mem_append.1 ht with ht | ht
            · exact List.mem_append.2 (.inl (h4 t ht b hb hdb))
            · exact List.mem_append.2 (.inr (h1 t ht b hb hdb))
          · intro b hb hdb
            rcases List.mem_cons.1 hb with rfl | hb
            · simp [h3]
            · simp [h2 b hb hdb]
        · refine ⟨L, h1, ?_⟩
          intro b hb hdb
          rcases List.mem_cons.1 hb with rfl | hb
          · exact absurd hdb hd
          · exact h2 b hb hdb
    obtain ⟨L, h1, h2⟩ := key (p.actions s) (fun a h => h)
    refine ⟨s :: L, by simp, ?_⟩
    intro t ht a hat hd
    rcases List.mem_cons.1 ht with rfl | ht
    · exact List.mem_cons_of_mem _ (h2 a hat hd)
    · exact List.mem_cons_of_mem _ (h1 t ht a hat hd)

theorem genLoop_stops {p : Proc R} {L : List Nat} (hL : Closed p L) : ∀ (k : Nat) (states queue : List Nat),
    states.Nodup → (∀ s ∈ states, s ∈ L) → (∀ s ∈ queue, s ∈ states) →
    L.length - states.length + queue.length < k → ∃ S, genLoop p k states queue = some S := by
  intro k
  induction k with
  | zero => intro states queue _ _ _ h; omega
  | succ k ih =>
    intro states queue hn hs hq hk
    cases queue with
    | nil => exact ⟨states, rfl⟩
    | cons s queue =>
      simp only [genLoop]
      obtain ⟨new, h1, h2, -, h4⟩ := visit_spec p s (p.actions s) states queue
      rw [h1]
      have hsub : ∀ t ∈ states ++ new, t ∈ L := by
        intro t ht
        rcases List.mem_append.1 ht with ht | ht
        · exact hs t ht
        · obtain ⟨a, ha, hd, rfl⟩ := h4 t ht
          exact hL s (hs s (hq s (by simp))) a ha hd
      have hlen := (List.subperm_of_subset (h2 hn) hsub).length_le
      refine ih _ _ (h2 hn) hsub ?_ ?_
      · intro t ht
        rcases List.mem_append.1 ht with ht | ht
        · have := hq t (by simp [ht]); simp [this]
        · simp [ht]
      · simp only [List.length_append, List.length_cons] at hlen hk ⊢
        omega

theorem genLoop_succ {p : Proc R} : ∀ (k : Nat) (states queue S : List Nat), genLoop p k states queue = some S →
    genLoop p (k + 1) states queue = some S := by
  intro k
  induction k with
  | zero => intro states queue S h; cases h
  | succ k ih =>
    intro states queue S h
    cases queue with
    | nil => exact h
    | cons s queue => simp only [genLoop] at h ⊢; exact ih _ _ _ h

theorem generate_mono {p : Proc R} {k m start : Nat} (hkm : k ≤ m) {S : List Nat} (h : generate p k start = some S) :
    generate p m start = some S := by
  induction hkm with
  | refl => exact h
  | step _ ih => exact genLoop_succ _ _ _ _ ih

theorem generate_stops {p : Proc R} {rank : Nat → Nat} (ha : Acyclic p rank) (start : Nat) :
    ∃ k S, generate p k start = some S := by
  obtain ⟨L, h1, h2⟩ := finite_closure ha _ start (Nat.lt_succ_self _)
  exact ⟨_, genLoop_stops h2 _ [start] [start] (by simp) (by simp [h1]) (by simp) (Nat.lt_succ_self _)⟩

/-! ### Values -/

variable {p : Proc R} {γ : R} {S : List Nat} {rank : Nat → Nat}

theorem qval_mono (hγ : 0 ≤ γ) (hc : Closed p S) {V W : Nat → R} (h : ∀ t ∈ S, V t ≤ W t) {s a : Nat} (hs : s ∈ S)
    (ha : a ∈ p.actions s) : qval p γ V s a ≤ qval p γ W s a := by
  unfold qval
  cases hd : p.done s a with
  | true => simp
  | false =>
    simp only [Bool.false_eq_true, if_false]
    have := mul_le_mul_of_nonneg_left (h _ (hc s hs a ha hd)) hγ
    linarith

theorem qval_congr (hc : Closed p S) (hr : Acyclic p rank) {V W : Nat → R} {s a : Nat} (hs : s ∈ S)
    (h : ∀ t ∈ S, rank t < rank s → V t = W t) (ha : a ∈ p.actions s) : qval p γ V s a = qval p γ W s a := by
  unfold qval
  cases hd : p.done s a with
  | true => simp
  | false =>
    simp only [Bool.false_eq_true, if_false]
    rw [h _ (hc s hs a ha hd) (hr s a ha hd)]

theorem qval_nonpos (hγ : 0 ≤ γ) (hc : Closed p S) (hrew : ∀ s a, p.reward s a ≤ 0) {V : Nat → R}
    (h : ∀ t ∈ S, V t ≤ 0) {s a : Nat} (hs : s ∈ S) (ha : a ∈ p.actions s) : qval p γ V s a ≤ 0 := by
  unfold qval
  cases hd : p.done s a with
  | true => simpa using hrew s a
  | false =>
    simp only [Bool.false_eq_true, if_false]
    have := mul_nonpos_of_nonneg_of_nonpos hγ (h _ (hc s hs a ha hd))
    have := hrew s a
    linarith

/-- Value of the best action. -/
def bestVal (p : Proc R) (γ : R) (V : Nat → R) (s : Nat) : R :=
  match pick (qval p γ V s) (p.actions s) with
  | none => 0
  | some (_, m) => m

theorem bestVal_spec (hne : ∀ s, p.actions s ≠ []) (V : Nat → R) (s : Nat) :
    ∃ a ∈ p.actions s, pick (qval p γ V s) (p.actions s) = some (a, bestVal p γ V s) ∧
      bestVal p γ V s = qval p γ V s a ∧ ∀ b ∈ p.actions s, qval p γ V s b ≤ bestVal p γ V s := by
  obtain ⟨a, h1, h2, h3⟩ := pick_spec (qval p γ V s) (hne s)
  have : bestVal p γ V s = qval p γ V s a := by unfold bestVal; rw [h1]
  exact ⟨a, h2, by rw [this]; exact h1, this, fun b hb => by rw [this]; exact h3 b hb⟩

theorem viSweep_eq (hne : ∀ s, p.actions s ≠ []) (l : List Nat) : ∀ acc,
    viSweep p γ l acc = gSweep (bestVal p γ) l acc := by
  induction l with
  | nil => intro acc; rfl
  | cons s ss ih =>
    intro (V, x)
    obtain ⟨a, -, h, -⟩ := bestVal_spec (γ := γ) hne V s
    unfold viSweep gSweep
    rw [h]
    exact ih _

theorem piSweep_eq (pol : Nat → Nat) (l : List Nat) : ∀ acc,
    piSweep p γ pol l acc = gSweep (fun V s => qval p γ V s (pol s)) l acc := by
  induction l with
  | nil => intro acc; rfl
  | cons s ss ih => intro (V, x); unfold piSweep gSweep; exact ih _

theorem best_mono (hγ : 0 ≤ γ) (hne : ∀ s, p.actions s ≠ []) (hc : Closed p S) : Mono (bestVal p γ) S := by
  intro V W h s hs
  obtain ⟨a, ha, -, h1, -⟩ := bestVal_spec (γ := γ) hne V s
  obtain ⟨-, -, -, -, h2⟩ := bestVal_spec (γ := γ) hne W s
  rw [h1]
  exact (qval_mono hγ hc h hs ha).trans (h2 a ha)

theorem pickFrom_congr {f g : Nat → R} {as : List Nat} : ∀ {acc : Option (Nat × R)}, (∀ a ∈ as, f a = g a) →
    pickFrom f acc as = pickFrom g acc as := by
  induction as with
  | nil => intro acc _; rfl
  | cons a as ih =>
    intro acc h
    unfold pickFrom
    rw [h a (by simp)]
    exact ih (fun b hb => h b (by simp [hb]))

theorem best_ranked (hr : Acyclic p rank) (hc : Closed p S) : Ranked (bestVal p γ) S rank := by
  intro V W s hs h
  unfold bestVal pick
  rw [pickFrom_congr (fun a ha => qval_congr (γ := γ) hc hr hs h ha)]

theorem pol_mono (hγ : 0 ≤ γ) (hc : Closed p S) {pol : Nat → Nat} (hp : ∀ s ∈ S, pol s ∈ p.actions s) :
    Mono (fun V s => qval p γ V s (pol s)) S := fun _ _ h s hs => qval_mono hγ hc h hs (hp s hs)

theorem pol_ranked (hr : Acyclic p rank) (hc : Closed p S) {pol : Nat → Nat} (hp : ∀ s ∈ S, pol s ∈ p.actions s) :
    Ranked (fun V s => qval p γ V s (pol s)) S rank := fun _ _ s hs h => qval_congr hc hr hs h (hp s hs)

theorem Mono.reverse {B : (Nat → R) → Nat → R} (h : Mono B S) : Mono B S.reverse := by
  intro V W hVW s hs
  exact h V W (fun t ht => hVW t (by simp [ht])) s (by simpa using hs)

theorem Ranked.reverse {B : (Nat → R) → Nat → R} (h : Ranked B S rank) : Ranked B S.reverse rank := by
  intro V W s hs hVW
  exact h V W s (by simpa using hs) (fun t ht => hVW t (by simp [ht]))

/-! ### Uniqueness and comparison of stationary values -/

/-- Every policy's values are at most the stationary best values. -/
theorem fix_le (hγ : 0 ≤ γ) (hne : ∀ s, p.actions s ≠ []) (hr : Acyclic p rank) (hc : Closed p S) {W V : Nat → R}
    {pol : Nat → Nat} (hp : ∀ s ∈ S, pol s ∈ p.actions s) (hW : ∀ s ∈ S, qval p γ W s (pol s) = W s)
    (hV : ∀ s ∈ S, bestVal p γ V s = V s) : ∀ s ∈ S, W s ≤ V s := by
  have : ∀ n s, s ∈ S → rank s < n → W s ≤ V s := by
    intro n
    induction n with
    | zero => intro s _ h; omega
    | succ n ih =>
      intro s hs hlt
      obtain ⟨-, -, -, -, h2⟩ := bestVal_spec (γ := γ) hne V s
      rw [← hW s hs, ← hV s hs]
      refine le_trans ?_ (h2 _ (hp s hs))
      unfold qval
      cases hd : p.done s (pol s) with
      | true => simp
      | false =>
        simp only [Bool.false_eq_true, if_false]
        have hlt' := hr s _ (hp s hs) hd
        have := mul_le_mul_of_nonneg_left (ih _ (hc s hs _ (hp s hs) hd) (by omega)) hγ
        linarith
  intro s hs
  exact this _ s hs (Nat.lt_succ_self _)

end MM.Learn
