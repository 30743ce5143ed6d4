import Verif.Proofs.ShortestPath
import Verif.Model.AStar

/-! # Invariants of the A* search (helper lemmas for C04) -/

set_option autoImplicit false
set_option linter.unusedSectionVars false

namespace MM.SP.AStar

variable {V W D : Type} [DecidableEq V] [LinearOrder D] [Cost D W] [Add D]

/-- What the proofs need of priorities `d + η v`: adding the heuristic preserves and reflects order (exact
arithmetic) and the heuristic is consistent. -/
structure Cons (g : Graph V W) (η : V → D) : Prop where
  mono : ∀ (a b : D) (v : V), a ≤ b → a + η v ≤ b + η v
  cancel : ∀ (a b : D) (v : V), a + η v ≤ b + η v → a ≤ b
  edge : ∀ (d : D) (v t : V) (w : W), (t, w) ∈ g v → d + η v ≤ Cost.add d w + η t
  zero : ∀ v : V, (Cost.zero W : D) + η v = η v

/-- Invariant at the head of the main loop. -/
structure Inv (g : Graph V W) (η : V → D) (exceeds : D → Bool) (start : V) (s : State V D) : Prop where
  hstart : s.dist start = some (Cost.zero W) ∧ s.pred start = some start
  walk : ∀ x d, s.dist x = some d → ∃ ws, Walk g start x ws ∧ cost D ws = d
  queue : ∀ k x, (k, x) ∈ s.queue → ∃ d, s.dist x = some d ∧ d + η x ≤ k
  opn : ∀ x d, s.dist x = some d → x ∈ s.finished ∨ (d + η x, x) ∈ s.queue
  fin : ∀ x, x ∈ s.finished → s.color x = .black ∧ ∃ d, s.dist x = some d ∧ ∀ e ∈ s.queue, d + η x ≤ e.1
  edges : ∀ x d, x ∈ s.finished → s.dist x = some d → ∀ e ∈ g x, EdgeOK s d e
  black : ∀ x, s.color x = .black → x ∈ s.finished ∨ x ∈ s.disabled
  dis : ∀ x, x ∈ s.disabled → s.color x = .black
  chain : ∀ x d, s.dist x = some d → Chain g start s.pred s.dist (· ∈ s.finished) x
  bound : ∀ x d, s.dist x = some d → x = start ∨ exceeds d = false
  disEx : ∀ x, x ∈ s.disabled → ∃ u ws w, Walk g start u ws ∧ (x, w) ∈ g u ∧ exceeds (cost D (ws ++ [w])) = true

/-- Invariant inside the edge loop for the popped entry `(k, v)` with stored distance `dv`. -/
structure Mid (g : Graph V W) (η : V → D) (exceeds : D → Bool) (start : V) (k : D) (v : V) (dv : D)
    (done : List (V × W)) (s : State V D) : Prop where
  hstart : s.dist start = some (Cost.zero W) ∧ s.pred start = some start
  walk : ∀ x d, s.dist x = some d → ∃ ws, Walk g start x ws ∧ cost D ws = d
  queue : ∀ k x, (k, x) ∈ s.queue → ∃ d, s.dist x = some d ∧ d + η x ≤ k
  opn : ∀ x d, s.dist x = some d → x ∈ s.finished ∨ x = v ∨ (d + η x, x) ∈ s.queue
  curd : s.dist v = some dv
  curle : dv + η v ≤ k
  cur : dv + η v = k ∨ v ∈ s.finished
  qmin : ∀ e ∈ s.queue, k ≤ e.1
  fin : ∀ x, x ∈ s.finished → s.color x = .black ∧ ∃ dx, s.dist x = some dx ∧ dx + η x ≤ k
  edges : ∀ x dx, x ∈ s.finished → s.dist x = some dx → ∀ e ∈ g x, EdgeOK s dx e
  edgesV : ∀ e ∈ done, EdgeOK s dv e
  black : ∀ x, s.color x = .black → x ∈ s.finished ∨ x ∈ s.disabled
  dis : ∀ x, x ∈ s.disabled → s.color x = .black
  chain : ∀ x d, s.dist x = some d → Chain g start s.pred s.dist (fun y => y ∈ s.finished ∨ y = v) x
  bound : ∀ x d, s.dist x = some d → x = start ∨ exceeds d = false
  disEx : ∀ x, x ∈ s.disabled → ∃ u ws w, Walk g start u ws ∧ (x, w) ∈ g u ∧ exceeds (cost D (ws ++ [w])) = true

variable {g : Graph V W} {η : V → D} {exceeds : D → Bool} {start : V}

theorem inv_init (hη : Cons g η) : Inv g η exceeds start (init W η start : State V D) where
  hstart := by simp [init]
  walk := by
    intro x d h
    by_cases hx : x = start
    · subst hx; simp [init] at h; exact ⟨[], .nil, by simpa [cost] using h⟩
    · simp [init, Function.update_of_ne hx] at h
  queue := by
    intro d x h
    simp [init] at h ⊢
    obtain ⟨rfl, rfl⟩ := h
    exact ⟨_, by simp, (hη.zero _).le⟩
  opn := by
    intro x d h
    by_cases hx : x = start
    · subst hx
      simp [init] at h ⊢
      rw [← h, hη.zero]
    · simp [init, Function.update_of_ne hx] at h
  fin := by intro x h; simp [init] at h
  edges := by intro x d h; simp [init] at h
  black := by
    intro x h
    by_cases hx : x = start
    · subst hx; simp [init] at h
    · simp [init, Function.update_of_ne hx] at h
  dis := by intro x h; simp [init] at h
  chain := by
    intro x d h
    by_cases hx : x = start
    · subst hx; exact .start (by simp [init]) (by simp [init])
    · simp [init, Function.update_of_ne hx] at h
  bound := by
    intro x d h
    by_cases hx : x = start
    · exact .inl hx
    · simp [init, Function.update_of_ne hx] at h
  disEx := by intro x h; simp [init] at h

/-- Entering the edge loop after popping a minimal entry. -/
theorem mid_of_inv {s : State V D} (h : Inv g η exceeds start s) {k : D} {v : V} (hmem : (k, v) ∈ s.queue)
    (hmin : ∀ e ∈ s.queue, k ≤ e.1) :
    ∃ dv, Mid g η exceeds start k v dv [] { s with queue := s.queue.erase (k, v) } := by
  obtain ⟨dv, hdv, hle⟩ := h.queue k v hmem
  refine ⟨dv, ?_⟩
  constructor
  · exact h.hstart
  · exact h.walk
  · exact fun d' x hx => h.queue d' x (List.mem_of_mem_erase hx)
  · intro x d' hx
    rcases h.opn x d' hx with hf | hq
    · exact .inl hf
    · by_cases hxv : x = v
      · exact .inr (.inl hxv)
      · refine .inr (.inr ?_)
        have : (d' + η x, x) ≠ (k, v) := by simp [hxv]
        exact (List.mem_erase_of_ne this).2 hq
  · exact hdv
  · exact hle
  · rcases h.opn v dv hdv with hf | hq
    · exact .inr hf
    · exact .inl (le_antisymm hle (hmin _ hq))
  · exact fun e he => hmin e (List.mem_of_mem_erase he)
  · intro x hx
    obtain ⟨hc, dx, hdx, hall⟩ := h.fin x hx
    exact ⟨hc, dx, hdx, hall _ hmem⟩
  · exact h.edges
  · intro e he; simp at he
  · exact h.black
  · exact h.dis
  · exact fun x d' hx =>
      (h.chain x d' hx).preserve (fun _ _ => ⟨rfl, rfl⟩) (fun _ hx => .inl hx) rfl rfl
  · exact h.bound
  · exact h.disEx

theorem mid_examine {s : State V D} {k : D} {v : V} {dv : D} {done : List (V × W)}
    (h : Mid g η exceeds start k v dv done s) (e : V × W) (he : e ∈ g v) :
    Mid g η exceeds start k v dv done (examineEdge exceeds v e s) ∧
      (exceeds (Cost.add dv e.2) = true → e.1 ∈ (examineEdge exceeds v e s).disabled) ∧
      (examineEdge exceeds v e s).finished = s.finished := by
  have hdv := h.curd
  unfold examineEdge
  rw [hdv]
  simp only [Option.getD_some]
  split
  · rename_i hex
    refine ⟨?_, ?_, rfl⟩
    · constructor
      · exact h.hstart
      · exact h.walk
      · exact h.queue
      · exact h.opn
      · exact h.curd
      · exact h.curle
      · exact h.cur
      · exact h.qmin
      · intro x hx
        obtain ⟨hc, r⟩ := h.fin x hx
        refine ⟨?_, r⟩
        by_cases hxe : x = e.1
        · subst hxe; simp
        · simpa [Function.update_of_ne hxe] using hc
      · intro x dx hx hdx e' he'
        rcases h.edges x dx hx hdx e' he' with r | r
        · exact .inl r
        · exact .inr (List.mem_cons_of_mem _ r)
      · intro e' he'
        rcases h.edgesV e' he' with r | r
        · exact .inl r
        · exact .inr (List.mem_cons_of_mem _ r)
      · intro x hx
        by_cases hxe : x = e.1
        · exact .inr (by simp [hxe])
        · simp [Function.update_of_ne hxe] at hx
          rcases h.black x hx with r | r
          · exact .inl r
          · exact .inr (List.mem_cons_of_mem _ r)
      · intro x hx
        by_cases hxe : x = e.1
        · subst hxe; simp
        · simp [hxe] at hx
          simpa [Function.update_of_ne hxe] using h.dis x hx
      · exact h.chain
      · exact h.bound
      · intro x hx
        rcases List.mem_cons.1 hx with rfl | hx
        · obtain ⟨ws, hw, hc⟩ := h.walk v dv hdv
          exact ⟨v, ws, e.2, hw, he, by rw [cost_snoc, hc]; exact hex⟩
        · exact h.disEx x hx
    · intro _; simp
  · rename_i hex
    exact ⟨h, fun hx => absurd hx hex, rfl⟩

theorem mid_update (hη : Cons g η) {s : State V D} {k : D} {v : V} {dv : D} {done : List (V × W)}
    (h : Mid g η exceeds start k v dv done s) (e : V × W) (he : e ∈ g v)
    (hex : exceeds (Cost.add dv e.2) = true → e.1 ∈ s.disabled)
    (hcol : s.color e.1 ≠ .black)
    (hlt : ∀ old, s.dist e.1 = some old → Cost.add dv e.2 < old) :
    Mid g η exceeds start k v dv (done ++ [e])
      { s with pred := Function.update s.pred e.1 (some v)
               dist := Function.update s.dist e.1 (some (Cost.add dv e.2))
               color := Function.update s.color e.1 .gray
               queue := (Cost.add dv e.2 + η e.1, e.1) :: s.queue } := by
  have hdv := h.curd
  have hle := h.curle
  have hcur := h.cur
  have hndis : e.1 ∉ s.disabled := fun hd => hcol (h.dis _ hd)
  have hfresh : dv + η v = k := by
    rcases hcur with r | r
    · exact r
    · rcases h.edges v dv r hdv e he with ⟨dt, hdt, hdle⟩ | hd
      · exact absurd (hlt dt hdt) (not_lt.2 hdle)
      · exact absurd hd hndis
  have hnev : e.1 ≠ v := by
    intro hev
    have := hlt dv (by rw [hev]; exact hdv)
    exact absurd this (not_lt.2 (Cost.infl _ _))
  have hnes : e.1 ≠ start := by
    intro hes
    have := hlt _ (by rw [hes]; exact h.hstart.1)
    obtain ⟨ws, _, hc⟩ := h.walk v dv hdv
    have h0 : (Cost.zero W : D) ≤ dv := hc ▸ zero_le_cost ws
    exact absurd this (not_lt.2 (h0.trans (Cost.infl _ _)))
  have hnf : e.1 ∉ s.finished := fun hf => hcol (h.fin _ hf).1
  have hok : ∀ (dx : D) (e' : V × W), EdgeOK s dx e' →
      EdgeOK { s with pred := Function.update s.pred e.1 (some v)
                      dist := Function.update s.dist e.1 (some (Cost.add dv e.2))
                      color := Function.update s.color e.1 .gray
                      queue := (Cost.add dv e.2 + η e.1, e.1) :: s.queue } dx e' := by
    intro dx e' h'
    rcases h' with ⟨dt, hdt, hdle⟩ | hd
    · left
      by_cases hee : e'.1 = e.1
      · refine ⟨Cost.add dv e.2, by simp [hee], ?_⟩
        rw [hee] at hdt
        exact (hlt dt hdt).le.trans hdle
      · exact ⟨dt, by simpa [Function.update_of_ne hee] using hdt, hdle⟩
    · exact .inr hd
  constructor
  · simp [Function.update_of_ne hnes.symm, h.hstart]
  · intro x dx hx
    by_cases hxe : x = e.1
    · subst hxe
      simp at hx
      obtain ⟨ws, hw, hc⟩ := h.walk v dv hdv
      exact ⟨ws ++ [e.2], .snoc hw he, by rw [cost_snoc, hc, hx]⟩
    · simp [Function.update_of_ne hxe] at hx
      exact h.walk x dx hx
  · intro d' x hx
    rcases List.mem_cons.1 hx with heq | hx
    · obtain ⟨rfl, rfl⟩ : d' = Cost.add dv e.2 + η e.1 ∧ x = e.1 := by simpa using heq
      exact ⟨_, by simp, le_refl _⟩
    · obtain ⟨d'', hd'', hdle⟩ := h.queue d' x hx
      by_cases hxe : x = e.1
      · refine ⟨Cost.add dv e.2, by simp [hxe], ?_⟩
        rw [hxe] at hd'' hdle ⊢
        exact (hη.mono _ _ _ (hlt _ hd'').le).trans hdle
      · exact ⟨d'', by simpa [Function.update_of_ne hxe] using hd'', hdle⟩
  · intro x dx hx
    by_cases hxe : x = e.1
    · subst hxe
      simp at hx
      exact .inr (.inr (by simp [hx]))
    · simp [Function.update_of_ne hxe] at hx
      rcases h.opn x dx hx with r | r | r
      · exact .inl r
      · exact .inr (.inl r)
      · exact .inr (.inr (List.mem_cons_of_mem _ r))
  · simpa [Function.update_of_ne hnev.symm] using hdv
  · exact hle
  · exact .inl hfresh
  · intro e' he'
    rcases List.mem_cons.1 he' with rfl | he'
    · rw [← hfresh]; exact hη.edge _ _ _ _ he
    · exact h.qmin e' he'
  · intro x hx
    have hxe : x ≠ e.1 := fun hxe => hnf (hxe ▸ hx)
    obtain ⟨hc, dx, hdx, hle'⟩ := h.fin x hx
    exact ⟨by simpa [Function.update_of_ne hxe] using hc, dx,
      by simpa [Function.update_of_ne hxe] using hdx, hle'⟩
  · intro x dx hx hdx e' he'
    have hxe : x ≠ e.1 := fun hxe => hnf (hxe ▸ hx)
    simp [Function.update_of_ne hxe] at hdx
    exact hok dx e' (h.edges x dx hx hdx e' he')
  · intro e' he'
    rcases List.mem_append.1 he' with he' | he'
    · exact hok dv e' (h.edgesV e' he')
    · obtain rfl : e' = e := by simpa using he'
      exact .inl ⟨_, by simp, le_refl _⟩
  · intro x hx
    by_cases hxe : x = e.1
    · subst hxe; simp at hx
    · simp [Function.update_of_ne hxe] at hx
      exact h.black x hx
  · intro x hx
    have hxe : x ≠ e.1 := fun hxe => hndis (hxe ▸ hx)
    simpa [Function.update_of_ne hxe] using h.dis x hx
  · have hpres : ∀ x, (x ∈ s.finished ∨ x = v) →
        Function.update s.pred e.1 (some v) x = s.pred x ∧
        Function.update s.dist e.1 (some (Cost.add dv e.2)) x = s.dist x := by
      intro x hx
      have hxe : x ≠ e.1 := by
        rcases hx with hx | hx
        · exact fun hxe => hnf (hxe ▸ hx)
        · exact fun hxe => hnev (hxe ▸ hx)
      simp [Function.update_of_ne hxe]
    intro x dx hx
    by_cases hxe : x = e.1
    · subst hxe
      have hcv := (h.chain v dv hdv).preserve hpres (fun _ r => r) (hpres v (.inr rfl)).1 (hpres v (.inr rfl)).2
      exact .step (u := v) (du := dv) (w := e.2) hcv (.inr rfl) (by simp) hnev.symm he
        ((hpres v (.inr rfl)).2.trans hdv) (by simp)
    · have hx' : s.dist x = some dx := by simpa [Function.update_of_ne hxe] using hx
      exact (h.chain x dx hx').preserve hpres (fun _ r => r) (by simp [Function.update_of_ne hxe])
        (by simp [Function.update_of_ne hxe])
  · intro x dx hx
    by_cases hxe : x = e.1
    · subst hxe
      simp at hx
      subst hx
      right
      by_contra hc
      exact hndis (hex (by simpa using hc))
    · simp [Function.update_of_ne hxe] at hx
      exact h.bound x dx hx
  · exact h.disEx

theorem mid_skip {s : State V D} {k : D} {v : V} {dv : D} {done : List (V × W)}
    (h : Mid g η exceeds start k v dv done s) (e : V × W) (he : EdgeOK s dv e) :
    Mid g η exceeds start k v dv (done ++ [e]) s :=
  { h with
    edgesV := by
      intro e' he'
      rcases List.mem_append.1 he' with he' | he'
      · exact h.edgesV e' he'
      · obtain rfl : e' = e := by simpa using he'
        exact he }

theorem mid_relax (hη : Cons g η) {s : State V D} {k : D} {v : V} {dv : D} {done : List (V × W)}
    (h : Mid g η exceeds start k v dv done s) (e : V × W) (he : e ∈ g v)
    (hex : exceeds (Cost.add dv e.2) = true → e.1 ∈ s.disabled) :
    Mid g η exceeds start k v dv (done ++ [e]) (relaxEdge η v e s) := by
  have hdv := h.curd
  unfold relaxEdge
  rw [hdv]
  simp only [Option.getD_some]
  split
  · rename_i hcol
    split
    · rename_i hupd
      refine mid_update hη h e he hex hcol ?_
      intro old ho
      rw [ho] at hupd
      simpa [improves] using hupd
    · rename_i hupd
      refine mid_skip h e ?_
      cases ho : s.dist e.1 with
      | none => rw [ho] at hupd; simp [improves] at hupd
      | some old =>
        rw [ho] at hupd
        exact .inl ⟨old, ho, by simpa [improves] using hupd⟩
  · rename_i hcol
    refine mid_skip h e ?_
    rcases h.cur with hc | hc
    · rcases h.black e.1 (by simpa using hcol) with hf | hd
      · obtain ⟨_, dt, hdt, hdle⟩ := h.fin _ hf
        refine .inl ⟨dt, hdt, hη.cancel _ _ e.1 ?_⟩
        exact (hdle.trans hc.ge).trans (hη.edge _ _ _ _ he)
      · exact .inr hd
    · exact h.edges v dv hc hdv e he

theorem mid_doEdge (hη : Cons g η) {s : State V D} {k : D} {v : V} {dv : D} {done : List (V × W)}
    (h : Mid g η exceeds start k v dv done s) (e : V × W) (he : e ∈ g v) :
    Mid g η exceeds start k v dv (done ++ [e]) (doEdge η exceeds v s e) := by
  obtain ⟨h1, h2, _⟩ := mid_examine h e he
  exact mid_relax hη h1 e he h2

theorem mid_foldl (hη : Cons g η) {k : D} {v : V} {dv : D} (es : List (V × W)) :
    ∀ (done : List (V × W)) (s : State V D),
    Mid g η exceeds start k v dv done s → (∀ e ∈ es, e ∈ g v) →
    Mid g η exceeds start k v dv (done ++ es) (es.foldl (doEdge η exceeds v) s) := by
  induction es with
  | nil => intro done s h _; simpa using h
  | cons e es ih =>
    intro done s h hes
    have := ih (done ++ [e]) _ (mid_doEdge hη h e (hes e (by simp))) (fun e' he' => hes e' (by simp [he']))
    simpa using this

theorem inv_expand (hη : Cons g η) {s : State V D} (h : Inv g η exceeds start s) {k : D} {v : V}
    (hmem : (k, v) ∈ s.queue) (hmin : ∀ e ∈ s.queue, k ≤ e.1) :
    Inv g η exceeds start (expand g η exceeds s k v) := by
  obtain ⟨dv, hm0⟩ := mid_of_inv h hmem hmin
  have hm := mid_foldl hη (g v) [] _ hm0 (fun _ he => he)
  unfold expand
  simp only
  generalize (g v).foldl (doEdge η exceeds v) { s with queue := s.queue.erase (k, v) } = s2 at hm ⊢
  have hok : ∀ (dx : D) (e' : V × W), EdgeOK s2 dx e' →
      EdgeOK { s2 with color := Function.update s2.color v .black, finished := v :: s2.finished } dx e' :=
    fun _ _ h' => h'
  constructor
  · exact hm.hstart
  · exact hm.walk
  · exact hm.queue
  · intro x dx hx
    rcases hm.opn x dx hx with r | r | r
    · exact .inl (List.mem_cons_of_mem _ r)
    · exact .inl (by simp [r])
    · exact .inr r
  · intro x hx
    by_cases hxv : x = v
    · subst hxv
      exact ⟨by simp, dv, hm.curd, fun e he => hm.curle.trans (hm.qmin e he)⟩
    · have hx' : x ∈ s2.finished := by simpa [hxv] using hx
      obtain ⟨hc, dx, hdx, hl⟩ := hm.fin x hx'
      exact ⟨by simpa [Function.update_of_ne hxv] using hc, dx, hdx, fun e he => hl.trans (hm.qmin e he)⟩
  · intro x dx hx hdx e he
    by_cases hxv : x = v
    · subst hxv
      obtain rfl : dv = dx := by have := hm.curd.symm.trans hdx; simpa using this
      exact hok _ _ (hm.edgesV e (by simpa using he))
    · exact hok _ _ (hm.edges x dx (by simpa [hxv] using hx) hdx e he)
  · intro x hx
    by_cases hxv : x = v
    · exact .inl (by simp [hxv])
    · simp [Function.update_of_ne hxv] at hx
      rcases hm.black x hx with r | r
      · exact .inl (List.mem_cons_of_mem _ r)
      · exact .inr r
  · intro x hx
    by_cases hxv : x = v
    · subst hxv; simp
    · simpa [Function.update_of_ne hxv] using hm.dis x hx
  · intro x dx hx
    refine (hm.chain x dx hx).preserve (fun _ _ => ⟨rfl, rfl⟩) ?_ rfl rfl
    intro y hy
    rcases hy with hy | hy
    · exact List.mem_cons_of_mem _ hy
    · simp [hy]
  · exact hm.bound
  · exact hm.disEx

theorem inv_reach (hη : Cons g η) {stop : List V → Bool} {s : State V D}
    (h : Reach g η exceeds stop start s) : Inv g η exceeds start s := by
  induction h with
  | init => exact inv_init hη
  | step _ hs ih => cases hs with | pop k v hmem hmin _ => exact inv_expand hη ih hmem hmin

/-! ### Finished log and queue -/

theorem doEdge_finished (η : V → D) (exceeds : D → Bool) (v : V) (s : State V D) (e : V × W) :
    (doEdge η exceeds v s e).finished = s.finished := by
  unfold doEdge relaxEdge examineEdge
  repeat' (first | rfl | split)

theorem foldl_finished (η : V → D) (exceeds : D → Bool) (v : V) (es : List (V × W)) (s : State V D) :
    (es.foldl (doEdge η exceeds v) s).finished = s.finished := by
  induction es generalizing s with
  | nil => rfl
  | cons e es ih => simp [ih, doEdge_finished]

theorem expand_finished (exceeds : D → Bool) (s : State V D) (k : D) (v : V) :
    (expand g η exceeds s k v).finished = v :: s.finished := by
  simp [expand, foldl_finished]

theorem doEdge_stale_queue {s : State V D} {k : D} {v : V} {dv : D} {done : List (V × W)}
    (h : Mid g η exceeds start k v dv done s) (hv : v ∈ s.finished) (e : V × W) (he : e ∈ g v) :
    (doEdge η exceeds v s e).queue = s.queue := by
  obtain ⟨h1, h2, h4⟩ := mid_examine h e he
  have hq : (examineEdge exceeds v e s).queue = s.queue := by
    unfold examineEdge; split <;> rfl
  unfold doEdge
  rw [← hq]
  generalize hs1 : examineEdge exceeds v e s = s1 at *
  have hE := h1.edges v dv (h4 ▸ hv) h1.curd e he
  unfold relaxEdge
  rw [h1.curd]
  simp only [Option.getD_some]
  split
  · rename_i hcol
    rcases hE with ⟨dt, hdt, hdle⟩ | hd
    · split
      · rename_i hlt
        rw [hdt] at hlt
        exact absurd hlt (by simpa [improves] using hdle)
      · rfl
    · exact absurd (h1.dis _ hd) hcol
  · rfl

theorem foldl_stale_queue (hη : Cons g η) {k : D} {v : V} {dv : D} (es : List (V × W)) :
    ∀ (done : List (V × W)) (s : State V D),
    Mid g η exceeds start k v dv done s → v ∈ s.finished → (∀ e ∈ es, e ∈ g v) →
    (es.foldl (doEdge η exceeds v) s).queue = s.queue := by
  induction es with
  | nil => intro done s _ _ _; rfl
  | cons e es ih =>
    intro done s h hv hes
    have he := hes e (by simp)
    rw [List.foldl_cons, ih (done ++ [e]) _ (mid_doEdge hη h e he) (by rw [doEdge_finished]; exact hv)
      (fun e' he' => hes e' (by simp [he'])), doEdge_stale_queue h hv e he]

theorem expand_stale_queue (hη : Cons g η) {s : State V D} (h : Inv g η exceeds start s) {k : D} {v : V}
    (hmem : (k, v) ∈ s.queue) (hmin : ∀ e ∈ s.queue, k ≤ e.1) (hv : v ∈ s.finished) :
    (expand g η exceeds s k v).queue = s.queue.erase (k, v) := by
  simp only [expand]
  obtain ⟨dv, hm⟩ := mid_of_inv h hmem hmin
  exact foldl_stale_queue hη (g v) [] _ hm hv (fun _ he => he)

/-! ### Optimality -/

theorem walkIn_bound (hη : Cons g η) {s : State V D} (h : Inv g η exceeds start s) {x : V} {ws : List W}
    (hw : WalkIn g (· ∉ s.disabled) start x ws) :
    (∃ d, s.dist x = some d ∧ d ≤ cost D ws) ∨ ∃ e ∈ s.queue, e.1 ≤ cost D ws + η x := by
  induction hw with
  | nil _ => exact .inl ⟨_, h.hstart.1, by simp [cost]⟩
  | @snoc b c ws w _ he hc ih =>
    rw [cost_snoc]
    rcases ih with ⟨d, hd, hle⟩ | ⟨e, he', hle⟩
    · rcases h.opn b d hd with hf | hq
      · rcases h.edges b d hf hd _ he with ⟨dt, hdt, hdle⟩ | hdd
        · exact .inl ⟨dt, hdt, hdle.trans (Cost.mono _ hle)⟩
        · exact absurd hdd hc
      · exact .inr ⟨_, hq, (hη.mono _ _ _ hle).trans (hη.edge _ _ _ _ he)⟩
    · exact .inr ⟨e, he', hle.trans (hη.edge _ _ _ _ he)⟩

theorem finished_le (hη : Cons g η) {s : State V D} (h : Inv g η exceeds start s) {x : V} {ws : List W}
    (hf : x ∈ s.finished) (hw : WalkIn g (· ∉ s.disabled) start x ws) :
    ∃ d, s.dist x = some d ∧ d ≤ cost D ws := by
  rcases walkIn_bound hη h hw with r | ⟨e, he, hle⟩
  · exact r
  · obtain ⟨_, d, hd, hall⟩ := h.fin x hf
    exact ⟨d, hd, hη.cancel _ _ x ((hall e he).trans hle)⟩

theorem disabled_false {s : State V D} (h : Inv g η (fun _ => false) start s) : ∀ x, x ∉ s.disabled := by
  intro x hx
  obtain ⟨u, ws, w, _, _, hf⟩ := h.disEx x hx
  cases hf

end MM.SP.AStar
