import Verif.Model.SimplifyRetry
import Verif.Props.NetImport

/-! # Property theorems C80 (simplification in storage that grows) -/

set_option autoImplicit false
set_option linter.unusedSectionVars false

namespace MM.SimplifyRetry

open MM.Net

variable {P : Type} [DecidableEq P]

theorem merges_name (complete : Bool) (g : Net P) (v : Nat) :
    ∀ p ∈ merges complete g v, complete = true ∨ p.1.name = p.2.name := by
  have key : ∀ (l acc : List (NEdge P × NEdge P)), (∀ p ∈ acc, complete = true ∨ p.1.name = p.2.name) →
      ∀ p ∈ l.foldl (addMerge complete) acc, complete = true ∨ p.1.name = p.2.name := by
    intro l
    induction l with
    | nil => intro acc h; exact h
    | cons x l ih =>
      intro acc h
      refine ih _ ?_
      intro p hp
      unfold addMerge at hp
      split_ifs at hp with h1 h2 h3 h4
      · exact h p hp
      · exact h p hp
      · rcases List.mem_append.1 hp with hp | hp
        · exact h p hp
        · simp only [List.mem_singleton] at hp
          subst hp
          simpa using h3
      · exact h p hp
      · exact h p hp
  exact key _ [] (by simp)

/-- After the first of several merges of a vertex, the vertex is mergeable and exactly the other merges are left. -/
theorem resume {pos : Nat → P} {g : Net P} (h : WF pos g) {v : Nat} (complete : Bool) (hm : isMergeable g v = true)
    {p q : NEdge P × NEdge P} {r : List (NEdge P × NEdge P)} (hp : merges complete g v = p :: q :: r) :
    isMergeable (⟨dropIsolated (rest g p ++ [joined g p]) p.1.tgt g.verts, rest g p ++ [joined g p], g.next + 1⟩ : Net P) v = true ∧
    merges complete (⟨dropIsolated (rest g p ++ [joined g p]) p.1.tgt g.verts, rest g p ++ [joined g p], g.next + 1⟩ : Net P) v =
      q :: r ∧
    dropIsolated (rest g p ++ [joined g p]) p.1.tgt g.verts = g.verts := by
  have hr := merges_ready h hm complete
  rw [hp] at hr
  have hok := merges_ok complete g v
  rw [hp] at hok
  have hname := merges_name complete g v
  rw [hp] at hname
  have hpq := (List.pairwise_cons.1 hr.distinct).1 q (by simp)
  have hpi := (hok.mem p (by simp)).1
  have hpo := (hok.mem p (by simp)).2
  have hqi := (hok.mem q (by simp)).1
  have hqo := (hok.mem q (by simp)).2
  have hinj : ∀ a ∈ g.edges, ∀ b ∈ g.edges, a.eid = b.eid → a = b := fun a ha b hb => h.inj ha hb
  have hnpi : ∀ e ∈ g.ins v, e.eid ≠ p.2.eid := by
    intro e he heq
    have := hinj e (mem_ins.1 he).1 p.2 (mem_outs.1 hpo).1 heq
    exact (hr.off p (by simp)).2 (by rw [← this]; exact (mem_ins.1 he).2)
  have hnpo : ∀ e ∈ g.outs v, e.eid ≠ p.1.eid := by
    intro e he heq
    have := hinj e (mem_outs.1 he).1 p.1 (mem_ins.1 hpi).1 heq
    exact (hr.off p (by simp)).1 (by rw [← this]; exact (mem_outs.1 he).2)
  rcases mergeable_shape h hm with ⟨i, o, hi, ho⟩ | ⟨i1, i2, o1, o2, hi, ho, -⟩
  · exfalso
    rw [hi] at hpi hqi
    simp at hpi hqi
    exact hpq.1 (by rw [hpi, hqi])
  · have hnil : r = [] := by
      cases r with
      | nil => rfl
      | cons c r =>
        exfalso
        have hc1 := (List.pairwise_cons.1 hr.distinct).1 c (by simp)
        have hc2 := (List.pairwise_cons.1 (List.pairwise_cons.1 hr.distinct).2).1 c (by simp)
        have hci := (hok.mem c (by simp)).1
        rw [hi] at hpi hqi hci
        simp only [List.mem_cons, List.not_mem_nil, or_false] at hpi hqi hci
        rcases hpi with e | e <;> rcases hqi with f | f <;> rcases hci with k | k <;>
          simp [e, f, k] at hpq hc1 hc2
    subst hnil
    have hins : Net.ins (⟨dropIsolated (rest g p ++ [joined g p]) p.1.tgt g.verts, rest g p ++ [joined g p], g.next + 1⟩ : Net P) v
        = [q.1] := by
      have e1 : Net.ins (⟨dropIsolated (rest g p ++ [joined g p]) p.1.tgt g.verts, rest g p ++ [joined g p], g.next + 1⟩ : Net P) v
          = (g.ins v).filter (fun e => decide (e.eid ≠ p.1.eid)) := by
        unfold Net.ins rest
        simp only [List.filter_append, List.filter_filter]
        have : [joined g p].filter (fun e => decide (e.tgt = v)) = [] := by
          simp only [List.filter_eq_nil_iff, List.mem_singleton]
          intro e he
          subst he
          have h0 := (hr.off p (by simp)).2
          rw [decide_eq_true_eq]
          exact h0
        rw [this, List.append_nil]
        refine List.filter_congr (fun e he => ?_)
        by_cases ht : e.tgt = v
        · have := hnpi e (mem_ins.2 ⟨he, ht⟩)
          simp [ht, this]
        · simp [ht]
      rw [e1, hi]
      rw [hi] at hpi hqi
      simp only [List.mem_cons, List.not_mem_nil, or_false] at hpi hqi
      rcases hpi with e | e <;> rcases hqi with f | f <;> simp [e, f] at hpq ⊢ <;>
        simp [List.filter, Ne.symm hpq.1]
    have houts : Net.outs (⟨dropIsolated (rest g p ++ [joined g p]) p.1.tgt g.verts, rest g p ++ [joined g p], g.next + 1⟩ : Net P) v
        = [q.2] := by
      have e1 : Net.outs (⟨dropIsolated (rest g p ++ [joined g p]) p.1.tgt g.verts, rest g p ++ [joined g p], g.next + 1⟩ : Net P) v
          = (g.outs v).filter (fun e => decide (e.eid ≠ p.2.eid)) := by
        unfold Net.outs rest
        simp only [List.filter_append, List.filter_filter]
        have : [joined g p].filter (fun e => decide (e.src = v)) = [] := by
          simp only [List.filter_eq_nil_iff, List.mem_singleton]
          intro e he
          subst he
          have h0 := (hr.off p (by simp)).1
          rw [decide_eq_true_eq]
          exact h0
        rw [this, List.append_nil]
        refine List.filter_congr (fun e he => ?_)
        by_cases ht : e.src = v
        · have := hnpo e (mem_outs.2 ⟨he, ht⟩)
          simp [ht, this]
        · simp [ht]
      rw [e1]
      rcases ho with ho | ho <;> rw [ho] <;> rw [ho] at hpo hqo <;>
        simp only [List.mem_cons, List.not_mem_nil, or_false] at hpo hqo <;>
        rcases hpo with e | e <;> rcases hqo with f | f <;> simp [e, f] at hpq ⊢ <;>
        simp [Ne.symm hpq.2]
    have hdrop : dropIsolated (rest g p ++ [joined g p]) p.1.tgt g.verts = g.verts := by
      unfold dropIsolated
      rw [if_neg]
      intro hall
      have hq : q.1 ∈ Net.ins (⟨dropIsolated (rest g p ++ [joined g p]) p.1.tgt g.verts, rest g p ++ [joined g p],
          g.next + 1⟩ : Net P) v := by rw [hins]; simp
      have := List.all_eq_true.1 hall q.1 (mem_ins.1 hq).1
      simp [(mem_ins.1 hq).2, (mem_ins.1 hpi).2] at this
    refine ⟨by simp [isMergeable, hins, houts], ?_, hdrop⟩
    unfold merges
    rw [hins, houts]
    have hc : q.1.eid ≠ q.2.eid := hr.cross q (by simp) q (by simp)
    have hd := hok.diff q (by simp)
    have ht : q.1.tgt = q.2.src := by rw [(mem_ins.1 hqi).2, (mem_outs.1 hqo).2]
    have hn := hname q (by simp)
    simp [addMerge, hc, hd, ht]
    rcases hn with hn | hn <;> simp [hn]

/-- No merge runs out of memory when the new edge is added. -/
def NoAdd (hs : List Halt) : Prop := Halt.add ∉ hs

theorem NoAdd.tail {hs : List Halt} (h : NoAdd hs) : NoAdd hs.tail := fun hm => h (List.mem_of_mem_tail hm)

theorem NoAdd.head {hs : List Halt} (h : NoAdd hs) : hs.headD .none = .none ∨ (hs.headD .none = .reserve ∧ hs ≠ []) := by
  cases hs with
  | nil => exact .inl rfl
  | cons a l =>
    cases a with
    | none => exact .inl rfl
    | reserve => exact .inr ⟨rfl, by simp⟩
    | add => exact absurd (List.mem_cons_self) h

/-- The merges of a vertex, interrupted or not. -/
theorem mergeAllTry_spec {pos : Nat → P} {v : Nat} (complete : Bool) : ∀ (ps : List (NEdge P × NEdge P)) (g : Net P) (hs : List Halt),
    WF pos g → NoAdd hs → (ps = [] ∨ (isMergeable g v = true ∧ merges complete g v = ps)) →
    (∃ g' hs', mergeAllTry ps g hs = .ok (g', hs', true) ∧ mergeAll g ps = .ok g' ∧ NoAdd hs' ∧
      hs'.count .reserve ≤ hs.count .reserve) ∨
    (∃ g' hs', mergeAllTry ps g hs = .ok (g', hs', false) ∧ WF pos g' ∧ g'.verts = g.verts ∧ isMergeable g' v = true ∧
      merges complete g' v ≠ [] ∧ mergeAll g' (merges complete g' v) = mergeAll g ps ∧ NoAdd hs' ∧
      hs'.count .reserve + 1 ≤ hs.count .reserve) := by
  intro ps
  induction ps with
  | nil =>
    intro g hs _ hn _
    exact .inl ⟨g, hs, rfl, rfl, hn, Nat.le_refl _⟩
  | cons p ps ih =>
    intro g hs h hn hm
    rcases hm with hm | ⟨hm, hp⟩
    · cases hm
    have hr := merges_ready h hm complete
    rw [hp] at hr
    have hmem := hr.mem p (by simp)
    have hmt : p.1.tgt = p.2.src := by rw [hmem.1.2, hmem.2.2]
    have hone := mergeOne_ok h hmem.1.1 hmem.2.1 hmt
    have hwf := mergeOne_wf h hmem.1.1 hmem.2.1 hmt
    have hl1 : p.1.line ≠ [] := by
      intro hl
      have := h.head p.1 hmem.1.1
      rw [hl] at this
      cases this
    have hl2 : p.2.line ≠ [] := by
      intro hl
      have := h.head p.2 hmem.2.1
      rw [hl] at this
      cases this
    rcases hn.head with hh | ⟨hh, hne⟩
    · have htry : mergeAllTry (p :: ps) g hs = mergeAllTry ps
          ⟨dropIsolated (rest g p ++ [joined g p]) p.1.tgt g.verts, rest g p ++ [joined g p], g.next + 1⟩ hs.tail := by
        rw [mergeAllTry, hh]
        simp [mergeTry, hone]
      have hall : mergeAll g (p :: ps) = mergeAll
          ⟨dropIsolated (rest g p ++ [joined g p]) p.1.tgt g.verts, rest g p ++ [joined g p], g.next + 1⟩ ps := by
        rw [mergeAll, hone]; rfl
      have hcount : hs.tail.count .reserve ≤ hs.count .reserve := (List.tail_sublist hs).count_le _
      rw [htry, hall]
      cases ps with
      | nil =>
        exact .inl ⟨_, _, rfl, rfl, hn.tail, hcount⟩
      | cons q r =>
        obtain ⟨r1, r2, r3⟩ := resume h complete hm hp
        rcases ih _ hs.tail hwf hn.tail (.inr ⟨r1, r2⟩) with ⟨g', hs', a1, a2, a3, a4⟩ | ⟨g', hs', a1, a2, a3, a4, a5, a6, a7, a8⟩
        · exact .inl ⟨g', hs', a1, a2, a3, by omega⟩
        · exact .inr ⟨g', hs', a1, a2, by rw [a3]; exact r3, a4, a5, a6, a7, by omega⟩
    · right
      refine ⟨g, hs.tail, ?_, h, rfl, hm, by rw [hp]; simp, by rw [hp], hn.tail, ?_⟩
      · rw [mergeAllTry, hh]
        simp [mergeTry, hl1, hl2]
      · cases hs with
        | nil => exact absurd rfl hne
        | cons a l =>
          simp at hh
          subst hh
          simp

/-- One vertex, interrupted or not. -/
theorem vertexTry_spec {pos : Nat → P} (complete : Bool) (v : Nat) (s : Sim P) (h : WF pos s.net) (hn : NoAdd s.pending) :
    (∃ t, vertexTry complete v s = .ok (t, true) ∧ simplifyVertex complete s.net v = .ok t.net ∧ NoAdd t.pending ∧
      t.running = s.running ∧ t.pending.count .reserve ≤ s.pending.count .reserve) ∨
    (∃ t, vertexTry complete v s = .ok (t, false) ∧ WF pos t.net ∧ t.net.verts = s.net.verts ∧
      simplifyVertex complete t.net v = simplifyVertex complete s.net v ∧ t.mark = some v ∧ NoAdd t.pending ∧
      t.running = s.running ∧ t.pending.count .reserve + 1 ≤ s.pending.count .reserve) := by
  unfold vertexTry
  cases hm : isMergeable s.net v with
  | false => exact .inl ⟨s, by simp, by simp [simplifyVertex, hm], hn, rfl, Nat.le_refl _⟩
  | true =>
    simp only [if_true]
    unfold mergeMarked
    by_cases he : merges complete s.net v = []
    · rw [if_pos he]
      exact .inl ⟨s, rfl, by simp [simplifyVertex, hm, he, mergeAll], hn, rfl, Nat.le_refl _⟩
    · rw [if_neg he]
      rcases mergeAllTry_spec complete (merges complete s.net v) s.net s.pending h hn (.inr ⟨hm, rfl⟩) with
        ⟨g', hs', a1, a2, a3, a4⟩ | ⟨g', hs', a1, a2, a3, a4, a5, a6, a7, a8⟩
      · left
        rw [a1]
        exact ⟨_, rfl, by simp [simplifyVertex, hm, a2], a3, rfl, a4⟩
      · right
        rw [a1]
        exact ⟨_, rfl, a2, a3, by simp [simplifyVertex, hm, a4, a6], rfl, a7, rfl, a8⟩

/-- A sub-list that contains the end of a list without repetitions ends with it. -/
theorem ends_with {γ : Type} {l w t : List γ} (hs : l.Sublist (w ++ t)) (hn : (w ++ t).Nodup) (ht : ∀ x ∈ t, x ∈ l) :
    ∃ w', l = w' ++ t ∧ w'.Sublist w := by
  obtain ⟨a, b, rfl, ha, hb⟩ := List.sublist_append_iff.1 hs
  have hsub : ∀ x ∈ t, x ∈ b := by
    intro x hx
    rcases List.mem_append.1 (ht x hx) with h | h
    · exact absurd rfl ((List.nodup_append.1 hn).2.2 x (ha.subset h) x hx)
    · exact h
  have hlen : t.length ≤ b.length := ((List.nodup_append.1 hn).2.1.subperm hsub).length_le
  have : b = t := hb.eq_of_length_le hlen
  subst this
  exact ⟨a, rfl, ha⟩

/-- The loop over the vertices, interrupted or not. -/
theorem loop_spec {pos : Nat → P} (complete : Bool) : ∀ (vs w : List Nat) (s : Sim P), WF pos s.net → NoAdd s.pending →
    (w ++ vs).Nodup → s.net.verts.Sublist (w ++ vs) → (∀ x ∈ vs, x ∈ s.net.verts) →
    (∃ t, loop complete false vs s = .ok (t, true) ∧ simplifyAll complete s.net vs = .ok t.net) ∨
    (∃ t w' v post, loop complete false vs s = .ok (t, false) ∧ WF pos t.net ∧ t.net.verts = w' ++ v :: post ∧
      simplifyAll complete t.net (v :: post) = simplifyAll complete s.net vs ∧ t.mark = some v ∧ NoAdd t.pending ∧
      t.running = s.running ∧ t.pending.count .reserve + 1 ≤ s.pending.count .reserve) := by
  intro vs
  induction vs with
  | nil => intro w s _ _ _ _ _; exact .inl ⟨s, rfl, rfl⟩
  | cons v vs ih =>
    intro w s h hn hnd hsub hmem
    rcases vertexTry_spec complete v s h hn with ⟨t, a1, a2, a3, a4, a5⟩ | ⟨t, a1, a2, a3, a4, a5, a6, a7, a8⟩
    · have hstep : loop complete false (v :: vs) s = loop complete false vs t := by
        simp [loop, a1]
      have hall : simplifyAll complete s.net (v :: vs) = simplifyAll complete t.net vs := by
        rw [simplifyAll, a2]; rfl
      obtain ⟨g', b1, b2, -, b4⟩ := simplifyVertex_ok pos (fun _ _ => (0 : Nat)) (fun _ _ => Nat.le_refl _) complete h v
      rw [a2] at b1
      cases b1
      rw [hstep, hall]
      have hnd' : ((w ++ [v]) ++ vs).Nodup := by simpa using hnd
      have hv : v ∉ vs := by
        have := (List.nodup_append.1 hnd).2.1
        exact (List.nodup_cons.1 this).1
      have := ih (w ++ [v]) t b2.wf a3 hnd' (b2.verts.trans (by simpa using hsub))
        (fun x hx => b4 x (hmem x (by simp [hx])) (fun hh => hv (hh ▸ hx)))
      rcases this with hl | ⟨u, w', v', post, c1, c2, c3, c4, c5, c6, c7, c8⟩
      · exact .inl hl
      · exact .inr ⟨u, w', v', post, c1, c2, c3, c4, c5, c6, c7.trans a4, by omega⟩
    · right
      obtain ⟨w', hw', -⟩ := ends_with hsub hnd hmem
      refine ⟨t, w', v, vs, by simp [loop, a1], a2, by rw [a3, hw'], ?_, a5, a6, a7, a8⟩
      rw [simplifyAll, a4, simplifyAll]

/-- Skipping to the marked vertex. -/
theorem loop_skip (complete : Bool) (v : Nat) (post : List Nat) : ∀ (w : List Nat) (s : Sim P), s.mark = some v → v ∉ w →
    loop complete true (w ++ v :: post) s = loop complete false (v :: post) s := by
  intro w
  induction w with
  | nil => intro s hm _; simp [loop, hm]
  | cons x w ih =>
    intro s hm hv
    have hx : v ≠ x := fun hh => hv (by simp [hh])
    rw [← ih s hm (fun hh => hv (by simp [hh]))]
    simp [loop, hm, hx]

/-- The state between two attempts: nothing was done yet, or the marked vertex comes next. -/
inductive Between (pos : Nat → P) (complete : Bool) (res : Outcome (Net P)) (s : Sim P) : Prop where
  | first (hr : s.running = false) (h : simplifyAll complete s.net s.net.verts = res)
  | later (w : List Nat) (v : Nat) (post : List Nat) (hr : s.running = true) (hm : s.mark = some v)
      (hv : s.net.verts = w ++ v :: post) (h : simplifyAll complete s.net (v :: post) = res)

theorem attempt_spec {pos : Nat → P} (complete : Bool) {res : Outcome (Net P)} {s : Sim P} (h : WF pos s.net)
    (hn : NoAdd s.pending) (hb : Between pos complete res s) :
    (∃ t, attempt complete s = .ok (t, some ()) ∧ res = .ok t.net ∧ t.running = false) ∨
    (∃ t, attempt complete s = .ok (t, none) ∧ WF pos t.net ∧ NoAdd t.pending ∧ Between pos complete res t ∧
      t.pending.count .reserve + 1 ≤ s.pending.count .reserve) := by
  have key : ∀ (vs w : List Nat), w ++ vs = s.net.verts → loop complete s.running s.net.verts { s with running := true } =
      loop complete false vs { s with running := true } → simplifyAll complete s.net vs = res →
      (∃ t, attempt complete s = .ok (t, some ()) ∧ res = .ok t.net ∧ t.running = false) ∨
      (∃ t, attempt complete s = .ok (t, none) ∧ WF pos t.net ∧ NoAdd t.pending ∧ Between pos complete res t ∧
        t.pending.count .reserve + 1 ≤ s.pending.count .reserve) := by
    intro vs w hvs hloop hres
    unfold attempt
    rw [hloop]
    rcases loop_spec complete vs w { s with running := true } h hn (by rw [hvs]; exact h.nodup) (by rw [hvs])
      (fun x hx => by
        show x ∈ s.net.verts
        rw [← hvs]; exact List.mem_append.2 (.inr hx)) with ⟨t, a1, a2⟩ | ⟨t, w', v, post, a1, a2, a3, a4, a5, a6, a7, a8⟩
    · left
      rw [a1]
      exact ⟨_, rfl, by rw [← hres]; exact a2, rfl⟩
    · right
      rw [a1]
      exact ⟨t, rfl, a2, a6, .later w' v post a7 a5 a3 (by rw [a4]; exact hres), a8⟩
  cases hb with
  | first hr hres => exact key s.net.verts [] rfl (by rw [hr]) hres
  | later w v post hr hm hv hres =>
    refine key (v :: post) w hv.symm ?_ hres
    rw [hr, hv]
    refine loop_skip complete v post w _ hm ?_
    have := h.nodup
    rw [hv] at this
    intro hw
    exact (List.nodup_append.1 this).2.2 v hw v (by simp) rfl

/-- **C80.** As long as the new edge fits into the place of the two it replaces, a simplification that was interrupted by
storage running full, and repeated any number of times, gives the same network as one that was not interrupted.  It ends
with an exception only if more allocations failed than there are retries.  It leaves nothing behind that would make the next
simplification skip vertices, whatever an earlier one left. -/
theorem simplify_resumes_partial (pos : Nat → P) (complete : Bool) (retries : Nat) (g g' : Net P) (hs : List Halt)
    (mark : Option Nat) (h : WF pos g) (hn : Halt.add ∉ hs) (hg : simplify complete g = .ok g') :
    ∃ t o, GHelper.retry (attempt complete) (fun s => s) retries { net := g, mark := mark, pending := hs } = .ok (t, o) ∧
      (o = some () → t.net = g' ∧ t.running = false) ∧ (o = none → retries < hs.count .reserve) := by
  have key : ∀ (retries : Nat) (s : Sim P), WF pos s.net → NoAdd s.pending → Between pos complete (.ok g') s →
      ∃ t o, GHelper.retry (attempt complete) (fun s => s) retries s = .ok (t, o) ∧
        (o = some () → t.net = g' ∧ t.running = false) ∧ (o = none → retries < s.pending.count .reserve) := by
    intro retries
    induction retries with
    | zero =>
      intro s h hn hb
      rcases attempt_spec complete h hn hb with ⟨t, a1, a2, a3⟩ | ⟨t, a1, -, -, -, a5⟩
      · refine ⟨t, some (), by simp [GHelper.retry, a1], fun _ => ?_, by simp⟩
        simp at a2; exact ⟨a2.symm, a3⟩
      · exact ⟨t, none, by simp [GHelper.retry, a1], by simp, fun _ => by omega⟩
    | succ r ih =>
      intro s h hn hb
      rcases attempt_spec complete h hn hb with ⟨t, a1, a2, a3⟩ | ⟨t, a1, a2, a3, a4, a5⟩
      · refine ⟨t, some (), by simp [GHelper.retry, a1], fun _ => ?_, by simp⟩
        simp at a2; exact ⟨a2.symm, a3⟩
      · obtain ⟨u, o, b1, b2, b3⟩ := ih t a2 a3 a4
        exact ⟨u, o, by simp [GHelper.retry, a1, b1], b2, fun ho => by have := b3 ho; omega⟩
  exact key retries { net := g, mark := mark, pending := hs } h hn (.first rfl hg)

/-- **C80.** In a mapped file, one shortage of memory during the simplification does not change its result. -/
theorem mapped_same_partial (pos : Nat → P) (complete : Bool) (g g' : Net P) (hs : List Halt) (h : WF pos g)
    (hn : Halt.add ∉ hs) (h1 : hs.count .reserve ≤ 1) (hg : simplify complete g = .ok g') :
    ∃ t, simplifyMapped complete { net := g, pending := hs } = .ok (t, some ()) ∧ t.net = g' ∧ t.running = false := by
  obtain ⟨t, o, a1, a2, a3⟩ := simplify_resumes_partial pos complete 1 g g' hs none h hn hg
  cases o with
  | none => have := a3 rfl; omega
  | some u => exact ⟨t, a1, a2 rfl⟩

/-- A two-way road of four nodes: the second merge of node 1 runs out of memory, then the first one of node 2. -/
def demo : Net Nat :=
  ⟨[0, 1, 2, 3], [⟨0, 5, 0, 1, [0, 1]⟩, ⟨1, 5, 1, 0, [1, 0]⟩, ⟨2, 5, 1, 2, [1, 2]⟩, ⟨3, 5, 2, 1, [2, 1]⟩,
    ⟨4, 6, 2, 3, [2, 3]⟩, ⟨5, 6, 3, 2, [3, 2]⟩], 6⟩

example : WF id demo := by constructor <;> decide

example : (GHelper.retry (attempt true) (fun s => s) 2 { net := demo, pending := [.none, .reserve, .none, .reserve] }).map
    (fun r => (r.1.net, r.2)) = (simplify true demo).map (fun g => (g, some ())) ∧
    simplify true demo = .ok ⟨[0, 3], [⟨8, 6, 3, 0, [3, 2, 1, 0]⟩, ⟨9, 5, 0, 3, [0, 1, 2, 3]⟩], 10⟩ := by
  decide

example : (simplifyMapped true { net := demo, pending := [.none, .reserve] }).map (fun r => (r.1.net, r.2)) =
    (simplify true demo).map (fun g => (g, some ())) := by decide

/-- **C80, false in general.** The storage is doubled before, and one retry is made: a network whose simplification fills the
storage a second time is not simplified, and the program ends with an exception. -/
theorem second_growth_fails : ∃ g : Net Nat, WF id g ∧ (∃ g', simplify true g = .ok g') ∧
    (simplifyMapped true { net := g, pending := [.reserve, .none, .reserve] }).map (fun r => r.2) = .ok none :=
  ⟨demo, by constructor <;> decide, ⟨_, rfl⟩, by decide⟩

/-- **C80, false in general.** The two edges are removed before the merged one is added (network_import.hpp 286-291): if adding
it fails, the retry succeeds and the road is gone. -/
theorem road_lost_fails : ∃ g : Net Nat, WF id g ∧ g.edges ≠ [] ∧
    (simplifyMapped true { net := g, pending := [.add] }).map (fun r => (r.1.net.edges, r.2)) = .ok ([], some ()) ∧
    ∃ g', simplify true g = .ok g' ∧ g'.edges ≠ [] :=
  ⟨⟨[0, 1, 2], [⟨0, 5, 0, 1, [0, 1]⟩, ⟨1, 5, 1, 2, [1, 2]⟩], 2⟩, by constructor <;> decide, by decide, by decide,
    _, rfl, by decide⟩

end MM.SimplifyRetry
