import Verif.Spec.Walk
import Mathlib.Data.Fintype.Card
import Mathlib.Order.Basic

/-! # Invariants of the Dijkstra search (helper lemmas for C01–C03) -/

set_option autoImplicit false
set_option linter.unusedSectionVars false

namespace MM.SP

variable {V W D : Type} [DecidableEq V] [LinearOrder D] [Cost D W]

omit [DecidableEq V] in
theorem cost_snoc (ws : List W) (w : W) : cost D (ws ++ [w]) = Cost.add (cost D ws) w := by
  simp [cost, List.foldl_append]

omit [DecidableEq V] in
theorem zero_le_cost (ws : List W) : (Cost.zero W : D) ≤ cost D ws := by
  induction ws using List.reverseRecOn with
  | nil => simp [cost]
  | append_singleton ws w ih => rw [cost_snoc]; exact ih.trans (Cost.infl _ _)

/-- Tree of predecessors: every ancestor is closed (never changed again). -/
inductive Chain (g : Graph V W) (start : V) (pred : V → Option V) (dist : V → Option D) (closed : V → Prop) :
    V → Prop where
  | start : pred start = some start → dist start = some (Cost.zero W) → Chain g start pred dist closed start
  | step {u v : V} {du : D} {w : W} : Chain g start pred dist closed u → closed u → pred v = some u → u ≠ v →
      (v, w) ∈ g u → dist u = some du → dist v = some (Cost.add du w) → Chain g start pred dist closed v

omit [DecidableEq V] in
theorem Chain.preserve {g : Graph V W} {start : V} {pred pred' : V → Option V} {dist dist' : V → Option D}
    {C C' : V → Prop} {v : V} (h : Chain g start pred dist C v)
    (hC : ∀ x, C x → pred' x = pred x ∧ dist' x = dist x) (hCC : ∀ x, C x → C' x) :
    pred' v = pred v → dist' v = dist v → Chain g start pred' dist' C' v := by
  induction h with
  | start hp hd => intro h1 h2; exact .start (h1.trans hp) (h2.trans hd)
  | @step u v du w _ hcu hp hne he hdu hdv ih =>
    intro h1 h2
    obtain ⟨e1, e2⟩ := hC u hcu
    exact .step (ih e1 e2) (hCC u hcu) (h1.trans hp) hne he (e2.trans hdu) (h2.trans hdv)

/-- What is known about an edge leaving a finished vertex with distance `dx`. -/
def EdgeOK (s : State V D) (dx : D) (e : V × W) : Prop :=
  (∃ dt, s.dist e.1 = some dt ∧ dt ≤ Cost.add dx e.2) ∨ e.1 ∈ s.disabled

/-- Invariant at the head of the main loop. -/
structure Inv (g : Graph V W) (exceeds : D → Bool) (start : V) (s : State V D) : Prop where
  hstart : s.dist start = some (Cost.zero W) ∧ s.pred start = some start
  walk : ∀ x d, s.dist x = some d → ∃ ws, Walk g start x ws ∧ cost D ws = d
  queue : ∀ d x, (d, x) ∈ s.queue → ∃ d', s.dist x = some d' ∧ d' ≤ d
  opn : ∀ x d, s.dist x = some d → x ∈ s.finished ∨ (d, x) ∈ s.queue
  fin : ∀ x, x ∈ s.finished → s.color x = .black ∧ ∃ d, s.dist x = some d ∧ ∀ e ∈ s.queue, d ≤ e.1
  edges : ∀ x d, x ∈ s.finished → s.dist x = some d → ∀ e ∈ g x, EdgeOK s d e
  black : ∀ x, s.color x = .black → x ∈ s.finished ∨ x ∈ s.disabled
  dis : ∀ x, x ∈ s.disabled → s.color x = .black
  chain : ∀ x d, s.dist x = some d → Chain g start s.pred s.dist (· ∈ s.finished) x
  bound : ∀ x d, s.dist x = some d → x = start ∨ exceeds d = false
  disEx : ∀ x, x ∈ s.disabled → ∃ u ws w, Walk g start u ws ∧ (x, w) ∈ g u ∧ exceeds (cost D (ws ++ [w])) = true

/-- Invariant inside the edge loop for the popped entry `(d, v)`; `done` are the edges already treated. -/
structure Mid (g : Graph V W) (exceeds : D → Bool) (start : V) (d : D) (v : V) (done : List (V × W))
    (s : State V D) : Prop where
  hstart : s.dist start = some (Cost.zero W) ∧ s.pred start = some start
  walk : ∀ x d, s.dist x = some d → ∃ ws, Walk g start x ws ∧ cost D ws = d
  queue : ∀ d x, (d, x) ∈ s.queue → ∃ d', s.dist x = some d' ∧ d' ≤ d
  opn : ∀ x d, s.dist x = some d → x ∈ s.finished ∨ x = v ∨ (d, x) ∈ s.queue
  cur : ∃ dv, s.dist v = some dv ∧ dv ≤ d ∧ (dv = d ∨ v ∈ s.finished)
  qmin : ∀ e ∈ s.queue, d ≤ e.1
  fin : ∀ x, x ∈ s.finished → s.color x = .black ∧ ∃ dx, s.dist x = some dx ∧ dx ≤ d
  edges : ∀ x dx, x ∈ s.finished → s.dist x = some dx → ∀ e ∈ g x, EdgeOK s dx e
  edgesV : ∀ dv, s.dist v = some dv → ∀ e ∈ done, EdgeOK s dv e
  black : ∀ x, s.color x = .black → x ∈ s.finished ∨ x ∈ s.disabled
  dis : ∀ x, x ∈ s.disabled → s.color x = .black
  chain : ∀ x d, s.dist x = some d → Chain g start s.pred s.dist (fun y => y ∈ s.finished ∨ y = v) x
  bound : ∀ x d, s.dist x = some d → x = start ∨ exceeds d = false
  disEx : ∀ x, x ∈ s.disabled → ∃ u ws w, Walk g start u ws ∧ (x, w) ∈ g u ∧ exceeds (cost D (ws ++ [w])) = true

variable {g : Graph V W} {exceeds : D → Bool} {start : V}

theorem inv_init : Inv g exceeds start (init W start : State V D) where
  hstart := by simp [init]
  walk := by
    intro x d h
    by_cases hx : x = start
    · subst hx; simp [init] at h; exact ⟨[], .nil, by simpa [cost] using h⟩
    · simp [init, Function.update_of_ne hx] at h
  queue := by
    intro d x h
    simp [init] at h ⊢
    obtain ⟨rfl, rfl⟩ := h
    exact ⟨_, by simp, le_refl _⟩
  opn := by
    intro x d h
    by_cases hx : x = start
    · subst hx; simp [init] at h ⊢; exact h.symm
    · simp [init, Function.update_of_ne hx] at h
  fin := by intro x h; simp [init] at h
  edges := by intro x d h; simp [init] at h
  black := by
    intro x h
    by_cases hx : x = start
    · subst hx; simp [init] at h
    · simp [init, Function.update_of_ne hx] at h
  dis := by intro x h; simp [init] at h
  chain := by
    intro x d h
    by_cases hx : x = start
    · subst hx; exact .start (by simp [init]) (by simp [init])
    · simp [init, Function.update_of_ne hx] at h
  bound := by
    intro x d h
    by_cases hx : x = start
    · exact .inl hx
    · simp [init, Function.update_of_ne hx] at h
  disEx := by intro x h; simp [init] at h

/-- Entering the edge loop after popping a minimal entry. -/
theorem mid_of_inv {s : State V D} (h : Inv g exceeds start s) {d : D} {v : V} (hmem : (d, v) ∈ s.queue)
    (hmin : ∀ e ∈ s.queue, d ≤ e.1) :
    Mid g exceeds start d v [] { s with queue := s.queue.erase (d, v) } where
  hstart := h.hstart
  walk := h.walk
  queue := fun d' x hx => h.queue d' x (List.mem_of_mem_erase hx)
  opn := by
    intro x d' hx
    rcases h.opn x d' hx with hf | hq
    · exact .inl hf
    · by_cases hxv : x = v
      · exact .inr (.inl hxv)
      · refine .inr (.inr ?_)
        have : (d', x) ≠ (d, v) := by simp [hxv]
        exact (List.mem_erase_of_ne this).2 hq
  cur := by
    obtain ⟨dv, hdv, hle⟩ := h.queue d v hmem
    refine ⟨dv, hdv, hle, ?_⟩
    rcases h.opn v dv hdv with hf | hq
    · exact .inr hf
    · exact .inl (le_antisymm hle (hmin _ hq))
  qmin := fun e he => hmin e (List.mem_of_mem_erase he)
  fin := by
    intro x hx
    obtain ⟨hc, dx, hdx, hall⟩ := h.fin x hx
    exact ⟨hc, dx, hdx, hall _ hmem⟩
  edges := h.edges
  edgesV := by intro _ _ e he; simp at he
  black := h.black
  dis := h.dis
  chain := fun x d' hx =>
    (h.chain x d' hx).preserve (fun _ _ => ⟨rfl, rfl⟩) (fun _ hx => .inl hx) rfl rfl
  bound := h.bound
  disEx := h.disEx

theorem mid_examine {s : State V D} {d : D} {v : V} {done : List (V × W)}
    (h : Mid g exceeds start d v done s) (e : V × W) (he : e ∈ g v) :
    Mid g exceeds start d v done (examineEdge exceeds v e s) ∧
      (∀ dv, s.dist v = some dv → exceeds (Cost.add dv e.2) = true → e.1 ∈ (examineEdge exceeds v e s).disabled) ∧
      (examineEdge exceeds v e s).dist = s.dist ∧ (examineEdge exceeds v e s).finished = s.finished := by
  obtain ⟨dv, hdv, hle, hcur⟩ := h.cur
  unfold examineEdge
  rw [hdv]
  simp only [Option.getD_some]
  split
  · rename_i hex
    refine ⟨?_, ?_, rfl, rfl⟩
    · constructor
      · exact h.hstart
      · exact h.walk
      · exact h.queue
      · exact h.opn
      · exact h.cur
      · exact h.qmin
      · intro x hx
        obtain ⟨hc, r⟩ := h.fin x hx
        refine ⟨?_, r⟩
        by_cases hxe : x = e.1
        · subst hxe; simp
        · simpa [Function.update_of_ne hxe] using hc
      · intro x dx hx hdx e' he'
        rcases h.edges x dx hx hdx e' he' with r | r
        · exact .inl r
        · exact .inr (List.mem_cons_of_mem _ r)
      · intro dv' hdv' e' he'
        rcases h.edgesV dv' hdv' e' he' with r | r
        · exact .inl r
        · exact .inr (List.mem_cons_of_mem _ r)
      · intro x hx
        by_cases hxe : x = e.1
        · exact .inr (by simp [hxe])
        · simp [Function.update_of_ne hxe] at hx
          rcases h.black x hx with r | r
          · exact .inl r
          · exact .inr (List.mem_cons_of_mem _ r)
      · intro x hx
        by_cases hxe : x = e.1
        · subst hxe; simp
        · simp [hxe] at hx
          simpa [Function.update_of_ne hxe] using h.dis x hx
      · exact h.chain
      · exact h.bound
      · intro x hx
        rcases List.mem_cons.1 hx with rfl | hx
        · obtain ⟨ws, hw, hc⟩ := h.walk v dv hdv
          exact ⟨v, ws, e.2, hw, he, by rw [cost_snoc, hc]; exact hex⟩
        · exact h.disEx x hx
    · intro _ _ _; simp
  · rename_i hex
    refine ⟨h, ?_, rfl, rfl⟩
    intro dv' hdv' hx
    obtain rfl : dv = dv' := by simpa using hdv'
    exact absurd hx hex

theorem mid_update {s : State V D} {d : D} {v : V} {done : List (V × W)}
    (h : Mid g exceeds start d v done s) (e : V × W) (he : e ∈ g v)
    (hex : ∀ dv, s.dist v = some dv → exceeds (Cost.add dv e.2) = true → e.1 ∈ s.disabled)
    (hcol : s.color e.1 ≠ .black)
    (hlt : ∀ old, s.dist e.1 = some old → Cost.add d e.2 < old) :
    Mid g exceeds start d v (done ++ [e])
      { s with pred := Function.update s.pred e.1 (some v)
               dist := Function.update s.dist e.1 (some (Cost.add d e.2))
               color := Function.update s.color e.1 .gray
               queue := (Cost.add d e.2, e.1) :: s.queue } := by
  obtain ⟨dv, hdv, hle, hcur⟩ := h.cur
  -- the current vertex is fresh: a stale one cannot trigger an update
  have hndis : e.1 ∉ s.disabled := fun hd => hcol (h.dis _ hd)
  have hfresh : dv = d := by
    rcases hcur with r | r
    · exact r
    · rcases h.edges v dv r hdv e he with ⟨dt, hdt, hdle⟩ | hd
      · exact absurd (hlt dt hdt) (not_lt.2 (hdle.trans (Cost.mono _ hle)))
      · exact absurd hd hndis
  subst hfresh
  have hnev : e.1 ≠ v := by
    intro hev
    have := hlt dv (by rw [hev]; exact hdv)
    exact absurd this (not_lt.2 (Cost.infl _ _))
  have hnes : e.1 ≠ start := by
    intro hes
    have := hlt _ (by rw [hes]; exact h.hstart.1)
    obtain ⟨ws, _, hc⟩ := h.walk v dv hdv
    have h0 : (Cost.zero W : D) ≤ dv := hc ▸ zero_le_cost ws
    exact absurd this (not_lt.2 (h0.trans (Cost.infl _ _)))
  have hnf : e.1 ∉ s.finished := fun hf => hcol (h.fin _ hf).1
  have hok : ∀ (dx : D) (e' : V × W), EdgeOK s dx e' →
      EdgeOK { s with pred := Function.update s.pred e.1 (some v)
                      dist := Function.update s.dist e.1 (some (Cost.add dv e.2))
                      color := Function.update s.color e.1 .gray
                      queue := (Cost.add dv e.2, e.1) :: s.queue } dx e' := by
    intro dx e' h'
    rcases h' with ⟨dt, hdt, hdle⟩ | hd
    · left
      by_cases hee : e'.1 = e.1
      · refine ⟨Cost.add dv e.2, by simp [hee], ?_⟩
        rw [hee] at hdt
        exact (hlt dt hdt).le.trans hdle
      · exact ⟨dt, by simpa [Function.update_of_ne hee] using hdt, hdle⟩
    · exact .inr hd
  constructor
  · simp [Function.update_of_ne hnes.symm, h.hstart]
  · intro x dx hx
    by_cases hxe : x = e.1
    · subst hxe
      simp at hx
      obtain ⟨ws, hw, hc⟩ := h.walk v dv hdv
      exact ⟨ws ++ [e.2], .snoc hw he, by rw [cost_snoc, hc, hx]⟩
    · simp [Function.update_of_ne hxe] at hx
      exact h.walk x dx hx
  · intro d' x hx
    rcases List.mem_cons.1 hx with heq | hx
    · obtain ⟨rfl, rfl⟩ : d' = Cost.add dv e.2 ∧ x = e.1 := by simpa using heq
      exact ⟨_, by simp, le_refl _⟩
    · obtain ⟨d'', hd'', hdle⟩ := h.queue d' x hx
      by_cases hxe : x = e.1
      · refine ⟨Cost.add dv e.2, by simp [hxe], ?_⟩
        rw [hxe] at hd''
        exact (hlt _ hd'').le.trans hdle
      · exact ⟨d'', by simpa [Function.update_of_ne hxe] using hd'', hdle⟩
  · intro x dx hx
    by_cases hxe : x = e.1
    · subst hxe
      simp at hx
      exact .inr (.inr (by simp [hx]))
    · simp [Function.update_of_ne hxe] at hx
      rcases h.opn x dx hx with r | r | r
      · exact .inl r
      · exact .inr (.inl r)
      · exact .inr (.inr (List.mem_cons_of_mem _ r))
  · exact ⟨dv, by simpa [Function.update_of_ne hnev.symm] using hdv, le_refl _, .inl rfl⟩
  · intro e' he'
    rcases List.mem_cons.1 he' with rfl | he'
    · exact Cost.infl _ _
    · exact h.qmin e' he'
  · intro x hx
    have hxe : x ≠ e.1 := fun hxe => hnf (hxe ▸ hx)
    obtain ⟨hc, dx, hdx, hle'⟩ := h.fin x hx
    exact ⟨by simpa [Function.update_of_ne hxe] using hc, dx,
      by simpa [Function.update_of_ne hxe] using hdx, hle'⟩
  · intro x dx hx hdx e' he'
    have hxe : x ≠ e.1 := fun hxe => hnf (hxe ▸ hx)
    simp [Function.update_of_ne hxe] at hdx
    exact hok dx e' (h.edges x dx hx hdx e' he')
  · intro dv' hdv' e' he'
    simp [Function.update_of_ne hnev.symm] at hdv'
    rcases List.mem_append.1 he' with he' | he'
    · exact hok dv' e' (h.edgesV dv' hdv' e' he')
    · obtain rfl : e' = e := by simpa using he'
      obtain rfl : dv = dv' := by rw [hdv] at hdv'; simpa using hdv'
      exact .inl ⟨_, by simp, le_refl _⟩
  · intro x hx
    by_cases hxe : x = e.1
    · subst hxe; simp at hx
    · simp [Function.update_of_ne hxe] at hx
      exact h.black x hx
  · intro x hx
    have hxe : x ≠ e.1 := fun hxe => hndis (hxe ▸ hx)
    simpa [Function.update_of_ne hxe] using h.dis x hx
  · have hpres : ∀ x, (x ∈ s.finished ∨ x = v) →
        Function.update s.pred e.1 (some v) x = s.pred x ∧
        Function.update s.dist e.1 (some (Cost.add dv e.2)) x = s.dist x := by
      intro x hx
      have hxe : x ≠ e.1 := by
        rcases hx with hx | hx
        · exact fun hxe => hnf (hxe ▸ hx)
        · exact fun hxe => hnev (hxe ▸ hx)
      simp [Function.update_of_ne hxe]
    intro x dx hx
    by_cases hxe : x = e.1
    · subst hxe
      have hcv := (h.chain v dv hdv).preserve hpres (fun _ r => r) (hpres v (.inr rfl)).1 (hpres v (.inr rfl)).2
      exact .step (u := v) (du := dv) (w := e.2) hcv (.inr rfl) (by simp) hnev.symm he
        ((hpres v (.inr rfl)).2.trans hdv) (by simp)
    · have hx' : s.dist x = some dx := by simpa [Function.update_of_ne hxe] using hx
      exact (h.chain x dx hx').preserve hpres (fun _ r => r) (by simp [Function.update_of_ne hxe])
        (by simp [Function.update_of_ne hxe])
  · intro x dx hx
    by_cases hxe : x = e.1
    · subst hxe
      simp at hx
      subst hx
      right
      by_contra hc
      exact hndis (hex dv hdv (by simpa using hc))
    · simp [Function.update_of_ne hxe] at hx
      exact h.bound x dx hx
  · exact h.disEx

theorem mid_skip {s : State V D} {d : D} {v : V} {done : List (V × W)}
    (h : Mid g exceeds start d v done s) (e : V × W) (he : ∀ dv, s.dist v = some dv → EdgeOK s dv e) :
    Mid g exceeds start d v (done ++ [e]) s :=
  { h with
    edgesV := by
      intro dv hdv e' he'
      rcases List.mem_append.1 he' with he' | he'
      · exact h.edgesV dv hdv e' he'
      · obtain rfl : e' = e := by simpa using he'
        exact he dv hdv }

theorem mid_relax {s : State V D} {d : D} {v : V} {done : List (V × W)}
    (h : Mid g exceeds start d v done s) (e : V × W) (he : e ∈ g v)
    (hex : ∀ dv, s.dist v = some dv → exceeds (Cost.add dv e.2) = true → e.1 ∈ s.disabled) :
    Mid g exceeds start d v (done ++ [e]) (relaxEdge d v e s) := by
  obtain ⟨dv, hdv, hle, hcur⟩ := h.cur
  unfold relaxEdge
  split
  · rename_i hcol
    split
    · rename_i hn
      exact mid_update h e he hex hcol (by intro old ho; rw [hn] at ho; cases ho)
    · rename_i old ho
      split
      · rename_i hlt
        exact mid_update h e he hex hcol (by intro old' ho'; rw [ho] at ho'; cases ho'; exact hlt)
      · rename_i hlt
        refine mid_skip h e ?_
        intro dv' hdv'
        obtain rfl : dv = dv' := by rw [hdv] at hdv'; simpa using hdv'
        rcases hcur with hc | hc
        · subst hc; exact .inl ⟨old, ho, not_lt.1 hlt⟩
        · exact h.edges v dv hc hdv e he
  · rename_i hcol
    refine mid_skip h e ?_
    intro dv' hdv'
    obtain rfl : dv = dv' := by rw [hdv] at hdv'; simpa using hdv'
    rcases hcur with hc | hc
    · subst hc
      rcases h.black e.1 (by simpa using hcol) with hf | hd
      · obtain ⟨_, dt, hdt, hdle⟩ := h.fin _ hf
        exact .inl ⟨dt, hdt, hdle.trans (Cost.infl _ _)⟩
      · exact .inr hd
    · exact h.edges v dv hc hdv e he

theorem mid_doEdge {s : State V D} {d : D} {v : V} {done : List (V × W)}
    (h : Mid g exceeds start d v done s) (e : V × W) (he : e ∈ g v) :
    Mid g exceeds start d v (done ++ [e]) (doEdge exceeds d v s e) := by
  obtain ⟨h1, h2, h3, _⟩ := mid_examine h e he
  exact mid_relax h1 e he (by rw [h3]; exact h2)

theorem mid_foldl {d : D} {v : V} (es : List (V × W)) : ∀ (done : List (V × W)) (s : State V D),
    Mid g exceeds start d v done s → (∀ e ∈ es, e ∈ g v) →
    Mid g exceeds start d v (done ++ es) (es.foldl (doEdge exceeds d v) s) := by
  induction es with
  | nil => intro done s h _; simpa using h
  | cons e es ih =>
    intro done s h hes
    have := ih (done ++ [e]) _ (mid_doEdge h e (hes e (by simp))) (fun e' he' => hes e' (by simp [he']))
    simpa using this

theorem inv_expand {s : State V D} (h : Inv g exceeds start s) {d : D} {v : V} (hmem : (d, v) ∈ s.queue)
    (hmin : ∀ e ∈ s.queue, d ≤ e.1) : Inv g exceeds start (expand g exceeds s d v) := by
  have hm := mid_foldl (g v) [] _ (mid_of_inv h hmem hmin) (fun _ he => he)
  unfold expand
  simp only
  generalize (g v).foldl (doEdge exceeds d v) { s with queue := s.queue.erase (d, v) } = s2 at hm ⊢
  obtain ⟨dv, hdv, hle, hcur⟩ := hm.cur
  have hok : ∀ (dx : D) (e' : V × W), EdgeOK s2 dx e' →
      EdgeOK { s2 with color := Function.update s2.color v .black, finished := v :: s2.finished } dx e' :=
    fun _ _ h' => h'
  constructor
  · exact hm.hstart
  · exact hm.walk
  · exact hm.queue
  · intro x dx hx
    rcases hm.opn x dx hx with r | r | r
    · exact .inl (List.mem_cons_of_mem _ r)
    · exact .inl (by simp [r])
    · exact .inr r
  · intro x hx
    by_cases hxv : x = v
    · subst hxv
      exact ⟨by simp, dv, hdv, fun e he => hle.trans (hm.qmin e he)⟩
    · have hx' : x ∈ s2.finished := by simpa [hxv] using hx
      obtain ⟨hc, dx, hdx, hl⟩ := hm.fin x hx'
      exact ⟨by simpa [Function.update_of_ne hxv] using hc, dx, hdx, fun e he => hl.trans (hm.qmin e he)⟩
  · intro x dx hx hdx e he
    by_cases hxv : x = v
    · subst hxv
      exact hok _ _ (hm.edgesV dx hdx e (by simpa using he))
    · exact hok _ _ (hm.edges x dx (by simpa [hxv] using hx) hdx e he)
  · intro x hx
    by_cases hxv : x = v
    · exact .inl (by simp [hxv])
    · simp [Function.update_of_ne hxv] at hx
      rcases hm.black x hx with r | r
      · exact .inl (List.mem_cons_of_mem _ r)
      · exact .inr r
  · intro x hx
    by_cases hxv : x = v
    · subst hxv; simp
    · simpa [Function.update_of_ne hxv] using hm.dis x hx
  · intro x dx hx
    refine (hm.chain x dx hx).preserve (fun _ _ => ⟨rfl, rfl⟩) ?_ rfl rfl
    intro y hy
    rcases hy with hy | hy
    · exact List.mem_cons_of_mem _ hy
    · simp [hy]
  · exact hm.bound
  · exact hm.disEx

theorem inv_reach {stop : List V → Bool} {s : State V D} (h : Reach g exceeds stop start s) :
    Inv g exceeds start s := by
  induction h with
  | init => exact inv_init
  | step _ hs ih => cases hs with | pop d v hmem hmin _ => exact inv_expand ih hmem hmin

/-! ### Finished vertices never change, queue growth -/

theorem doEdge_finished (exceeds : D → Bool) (d : D) (v : V) (s : State V D) (e : V × W) :
    (doEdge exceeds d v s e).finished = s.finished := by
  unfold doEdge relaxEdge examineEdge
  repeat' (first | rfl | split)

theorem foldl_finished (exceeds : D → Bool) (d : D) (v : V) (es : List (V × W)) (s : State V D) :
    (es.foldl (doEdge exceeds d v) s).finished = s.finished := by
  induction es generalizing s with
  | nil => rfl
  | cons e es ih => simp [ih, doEdge_finished]

theorem expand_finished (exceeds : D → Bool) (s : State V D) (d : D) (v : V) :
    (expand g exceeds s d v).finished = v :: s.finished := by
  simp [expand, foldl_finished]

theorem doEdge_stale_queue {s : State V D} {d : D} {v : V} {done : List (V × W)}
    (h : Mid g exceeds start d v done s) (hv : v ∈ s.finished) (e : V × W) (he : e ∈ g v) :
    (doEdge exceeds d v s e).queue = s.queue := by
  obtain ⟨h1, h2, h3, h4⟩ := mid_examine h e he
  have hq : (examineEdge exceeds v e s).queue = s.queue := by
    unfold examineEdge; split <;> rfl
  unfold doEdge
  rw [← hq]
  generalize hs1 : examineEdge exceeds v e s = s1 at *
  obtain ⟨dv, hdv, hle, _⟩ := h1.cur
  have hE := h1.edges v dv (h4 ▸ hv) hdv e he
  unfold relaxEdge
  split
  · rename_i hcol
    rcases hE with ⟨dt, hdt, hdle⟩ | hd
    · rw [hdt]
      simp only
      split
      · rename_i hlt
        exact absurd hlt (not_lt.2 (hdle.trans (Cost.mono _ hle)))
      · rfl
    · exact absurd (h1.dis _ hd) hcol
  · rfl

theorem foldl_stale_queue {d : D} {v : V} (es : List (V × W)) : ∀ (done : List (V × W)) (s : State V D),
    Mid g exceeds start d v done s → v ∈ s.finished → (∀ e ∈ es, e ∈ g v) →
    (es.foldl (doEdge exceeds d v) s).queue = s.queue := by
  induction es with
  | nil => intro done s _ _ _; rfl
  | cons e es ih =>
    intro done s h hv hes
    have he := hes e (by simp)
    rw [List.foldl_cons, ih (done ++ [e]) _ (mid_doEdge h e he) (by rw [doEdge_finished]; exact hv)
      (fun e' he' => hes e' (by simp [he'])), doEdge_stale_queue h hv e he]

/-- Popping a vertex a second time removes its entry and pushes nothing. -/
theorem expand_stale_queue {s : State V D} (h : Inv g exceeds start s) {d : D} {v : V} (hmem : (d, v) ∈ s.queue)
    (hmin : ∀ e ∈ s.queue, d ≤ e.1) (hv : v ∈ s.finished) :
    (expand g exceeds s d v).queue = s.queue.erase (d, v) := by
  simp only [expand]
  exact foldl_stale_queue (g v) [] _ (mid_of_inv h hmem hmin) hv (fun _ he => he)

/-! ### Optimality -/

/-- Walks avoiding disabled vertices are not shorter than the distance of a finished vertex, or they meet the queue. -/
theorem walkIn_bound {s : State V D} (h : Inv g exceeds start s) {x : V} {ws : List W}
    (hw : WalkIn g (· ∉ s.disabled) start x ws) :
    (∃ d, s.dist x = some d ∧ d ≤ cost D ws) ∨ ∃ e ∈ s.queue, e.1 ≤ cost D ws := by
  induction hw with
  | nil _ => exact .inl ⟨_, h.hstart.1, by simp [cost]⟩
  | @snoc b c ws w _ he hc ih =>
    rw [cost_snoc]
    rcases ih with ⟨d, hd, hle⟩ | ⟨e, he', hle⟩
    · rcases h.opn b d hd with hf | hq
      · rcases h.edges b d hf hd _ he with ⟨dt, hdt, hdle⟩ | hdd
        · exact .inl ⟨dt, hdt, hdle.trans (Cost.mono _ hle)⟩
        · exact absurd hdd hc
      · exact .inr ⟨_, hq, hle.trans (Cost.infl _ _)⟩
    · exact .inr ⟨e, he', hle.trans (Cost.infl _ _)⟩

/-- A finished vertex is at most as far as any walk that avoids disabled vertices. -/
theorem finished_le {s : State V D} (h : Inv g exceeds start s) {x : V} {ws : List W}
    (hf : x ∈ s.finished) (hw : WalkIn g (· ∉ s.disabled) start x ws) :
    ∃ d, s.dist x = some d ∧ d ≤ cost D ws := by
  rcases walkIn_bound h hw with r | ⟨e, he, hle⟩
  · exact r
  · obtain ⟨_, d, hd, hall⟩ := h.fin x hf
    exact ⟨d, hd, (hall e he).trans hle⟩

omit [DecidableEq V] in
theorem walkIn_of_walk {ok : V → Prop} (hok : ∀ x, ok x) {x : V} {ws : List W} (hw : Walk g start x ws) :
    WalkIn g ok start x ws := by
  induction hw with
  | nil => exact .nil (hok _)
  | snoc _ he ih => exact .snoc ih he (hok _)

omit [DecidableEq V] in
theorem WalkIn.walk {ok : V → Prop} {x : V} {ws : List W} (hw : WalkIn g ok start x ws) : Walk g start x ws := by
  induction hw with
  | nil => exact .nil
  | snoc _ he _ ih => exact .snoc ih he

theorem disabled_false {s : State V D} (h : Inv g (fun _ => false) start s) : ∀ x, x ∉ s.disabled := by
  intro x hx
  obtain ⟨u, ws, w, _, _, hf⟩ := h.disEx x hx
  cases hf

/-! ### Path reconstruction -/

omit [DecidableEq V] in
theorem VPath.snoc {p : List V} {ws : List W} {a b : V} {w : W} (h : VPath g (p ++ [a]) ws) (he : (b, w) ∈ g a) :
    VPath g (p ++ [a, b]) (ws ++ [w]) := by
  induction p generalizing ws with
  | nil =>
    cases h with
    | single => exact .cons he (.single b)
  | cons c p ih =>
    cases p with
    | nil =>
      cases h with
      | cons h1 h2 => exact .cons h1 (ih h2)
    | cons c' p =>
      cases h with
      | cons h1 h2 => exact .cons h1 (ih h2)

theorem pathBack_chain {s : State V D} {C : V → Prop} (dflt : V) {v : V} (h : Chain g start s.pred s.dist C v) :
    ∃ (n : Nat) (p : List V) (ws : List W), (∀ acc, pathBack dflt n s.pred v acc = some (p ++ v :: acc)) ∧
      (p ++ [v]).head? = some start ∧ VPath g (p ++ [v]) ws ∧ s.dist v = some (cost D ws) := by
  induction h with
  | start hp hd =>
    refine ⟨1, [], [], ?_, by simp, .single _, by simpa [cost] using hd⟩
    intro acc
    simp [pathBack, hp]
  | @step u v du w hu hcu hp hne he hdu hdv ih =>
    obtain ⟨n, p, ws, hpb, hhd, hvp, hdist⟩ := ih
    refine ⟨n + 1, p ++ [u], ws ++ [w], ?_, ?_, ?_, ?_⟩
    · intro acc
      have hup : Function.update s.pred v (some u) = s.pred := by
        rw [← hp, Function.update_eq_self]
      simp [pathBack, hp, hup, hne, hpb]
    · cases p with
      | nil => simpa using hhd
      | cons a p => simpa using hhd
    · simpa using hvp.snoc he
    · rw [cost_snoc, hdv]
      rw [hdu] at hdist
      simp at hdist
      rw [hdist]

end MM.SP
