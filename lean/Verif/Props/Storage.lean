import Verif.Model.Storage

/-!
# C100: a storage belongs to one object at a time
-/

set_option autoImplicit false
set_option linter.unusedSectionVars false

namespace MM.Storage

variable {C : Type}

/-! ### What the user of storages relies on -/

/-- Someone who owns a storage: the file, whether it is a temporary one, whether it was made (and not just opened) by them. -/
structure Owner where
  path : Nat
  temporary : Bool
  made : Bool
deriving DecidableEq

/-- Who owns what (`some none`: someone who gave everything away), and what is in the files. -/
structure Book (C : Type) where
  vars : Nat → Option (Option Owner)
  files : Nat → Option C

/-- The files `old` are there, and nobody owns anything. -/
def Book.start (old : List (File C)) : Book C := ⟨fun _ => none, fun p => (old[p]?).map File.value⟩

/-- Somebody owns the file. -/
def Book.Used (b : Book C) (p : Nat) : Prop := ∃ s o, b.vars s = some (some o) ∧ o.path = p

/-- A storage ends: a temporary file vanishes. -/
def released (files : Nat → Option C) : Option Owner → Nat → Option C
  | some o => if o.temporary then Function.update files o.path none else files
  | none => files

/-- What operations are for. -/
inductive Does : Book C → Op C → Book C → Prop
  | construct (b : Book C) (s p : Nat) (c : C) (size : Nat) (d sh : Bool) (hv : b.vars s = none) (hp : ¬ b.Used p) (hs : 0 < size) :
      Does b (.construct s p c size d sh) ⟨Function.update b.vars s (some (some ⟨p, d, true⟩)), Function.update b.files p (some c)⟩
  | openStorage (b : Book C) (s p : Nat) (hv : b.vars s = none) (hp : ¬ b.Used p) (hf : b.files p ≠ none) :
      Does b (.openStorage s p) ⟨Function.update b.vars s (some (some ⟨p, false, false⟩)), b.files⟩
  | write (b : Book C) (s : Nat) (o : Owner) (f : C → C) (v : C) (hv : b.vars s = some (some o)) (hm : o.made = true)
      (hf : b.files o.path = some v) : Does b (.write s f) ⟨b.vars, Function.update b.files o.path (some (f v))⟩
  | grow (b : Book C) (s : Nat) (o : Owner) (size : Nat) (hv : b.vars s = some (some o)) : Does b (.grow s size) b
  | dropGrow (b : Book C) (s : Nat) (o : Owner) (c : C) (hv : b.vars s = some (some o)) :
      Does b (.dropGrow s c) ⟨b.vars, Function.update b.files o.path (some c)⟩
  | shrinkToFit (b : Book C) (s : Nat) (o : Owner) (hv : b.vars s = some (some o)) : Does b (.shrinkToFit s) b
  | moveConstruct (b : Book C) (d s : Nat) (x : Option Owner) (hv : b.vars s = some x) (hd : b.vars d = none) :
      Does b (.moveConstruct d s) ⟨Function.update (Function.update b.vars s (some none)) d (some x), b.files⟩
  | moveSelf (b : Book C) (s : Nat) (x : Option Owner) (hv : b.vars s = some x) : Does b (.moveAssign s s) b
  | moveAssign (b : Book C) (d s : Nat) (x y : Option Owner) (hv : b.vars s = some x) (hd : b.vars d = some y) (hn : d ≠ s) :
      Does b (.moveAssign d s) ⟨Function.update (Function.update b.vars s (some none)) d (some x), released b.files y⟩
  | destruct (b : Book C) (s : Nat) (x : Option Owner) (hv : b.vars s = some x) :
      Does b (.destruct s) ⟨Function.update b.vars s none, released b.files x⟩

/-- Several operations, each of them as `P` demands. -/
inductive Runs (P : Book C → Op C → Prop) : Book C → List (Op C) → Book C → Prop
  | nil (b : Book C) : Runs P b [] b
  | cons (b b' b'' : Book C) (op : Op C) (ops : List (Op C)) (hp : P b op) (h : Does b op b') (hr : Runs P b' ops b'') :
      Runs P b (op :: ops) b''

/-- The storages in the world are those in the book. -/
structure Agrees (b : Book C) (w : World C) : Prop where
  /-- There are the same variables. -/
  vars : ∀ s, (w.objs s).isSome = (b.vars s).isSome
  /-- Who owns a storage sees what is in it. -/
  sees : ∀ s o, b.vars s = some (some o) → ∃ v, b.files o.path = some v ∧ see w s = .ok v
  /-- Nobody else sees it: what was moved from leads nowhere. -/
  left : ∀ s, b.vars s = some none → see w s = .ub
  /-- The files are there, with what is in them, and no others. -/
  files : ∀ p, content w p = b.files p
  /-- What is mapped is owned, and the other way round. -/
  owned : ∀ m, w.maps m ≠ none ↔ ∃ s o, w.objs s = some o ∧ o.mapping = some m
  /-- There is only one owner. -/
  sole : ∀ s t x y m, w.objs s = some x → w.objs t = some y → x.mapping = some m → y.mapping = some m → s = t

/-- Nobody who still owns a storage is assigned another one, and no storage is shrunk while it is used. -/
def Careful (b : Book C) : Op C → Prop
  | .shrinkToFit _ => False
  | .moveAssign d s => d = s ∨ b.vars d = some none
  | _ => True

/-! ### Invariant -/

/-- The invariant: pointers, mappings and paths of an owner fit together. -/
structure Inv (b : Book C) (w : World C) : Prop where
  gone : ∀ s, b.vars s = none ↔ w.objs s = none
  moved : ∀ s, b.vars s = some none → ∃ o, w.objs s = some o ∧ o.path = none ∧ o.mapping = none ∧ o.roots = none
  own : ∀ s o, b.vars s = some (some o) → ∃ x m n wr, w.objs s = some x ∧ x.path = some o.path ∧ x.mapping = some m ∧
    x.roots = some m ∧ x.alloc = some m ∧ x.destroy = o.temporary ∧ w.maps m = some ⟨n, wr⟩ ∧ w.files o.path = some n ∧
    (o.made = true → wr = true)
  absent : ∀ p, w.files p = none → b.files p = none
  here : ∀ p n, w.files p = some n → n < w.nextNode ∧ ∃ f, w.nodes n = some f ∧ b.files p = some f.value ∧ 0 < f.size
  inj : ∀ p q n, w.files p = some n → w.files q = some n → p = q
  live : ∀ m y, w.maps m = some y → m < w.nextMap ∧ ∃ s x, w.objs s = some x ∧ x.mapping = some m
  sole : ∀ s t x y m, w.objs s = some x → w.objs t = some y → x.mapping = some m → y.mapping = some m → s = t
  paths : ∀ s t o o', b.vars s = some (some o) → b.vars t = some (some o') → o.path = o'.path → s = t

theorem Inv.agrees {b : Book C} {w : World C} (h : Inv b w) : Agrees b w := by
  refine ⟨?_, ?_, ?_, ?_, ?_, h.sole⟩
  · intro s
    have := h.gone s
    cases hb : b.vars s <;> cases hw : w.objs s <;> simp_all
  · intro s o hs
    obtain ⟨x, m, n, wr, h1, -, -, h4, -, -, h7, h8, -⟩ := h.own s o hs
    obtain ⟨-, f, hf, hb, -⟩ := h.here _ _ h8
    exact ⟨f.value, hb, by simp [see, h1, h4, fileOf, h7, hf]⟩
  · intro s hs
    obtain ⟨o, h1, -, -, h4⟩ := h.moved s hs
    simp [see, h1, h4, fileOf]
  · intro p
    cases hp : w.files p with
    | none => simp [content, hp, h.absent p hp]
    | some n =>
      obtain ⟨-, f, hf, hb, -⟩ := h.here _ _ hp
      simp [content, hp, hf, hb]
  · intro m
    constructor
    · intro hm
      cases hy : w.maps m with
      | none => exact absurd hy hm
      | some y => exact (h.live m y hy).2
    · rintro ⟨s, o, hs, ho⟩
      cases hb : b.vars s with
      | none => rw [(h.gone s).1 hb] at hs; exact absurd hs (by simp)
      | some z =>
        cases z with
        | none =>
          obtain ⟨o', h1, -, h3⟩ := h.moved s hb
          simp_all
        | some z =>
          obtain ⟨x, m', n, wr, h1, -, h3, -, -, -, h7, -, -⟩ := h.own s z hb
          simp_all

theorem inv_start (old : List (File C)) (hs : ∀ f ∈ old, 0 < f.size) : Inv (Book.start old) (World.start old) := by
  refine ⟨by simp [Book.start, World.start], by simp [Book.start], by simp [Book.start], ?_, ?_, ?_, by simp [World.start],
    by simp [World.start], by simp [Book.start]⟩
  · intro p hp
    simp only [World.start] at hp
    simp only [Book.start]
    split at hp
    · simp at hp
    · rw [List.getElem?_eq_none (by omega)]; rfl
  · intro p n hp
    simp only [World.start] at hp ⊢
    split at hp
    · rename_i hl
      injection hp with hp
      subst hp
      refine ⟨hl, old[p], by simp [hl], by simp [Book.start, hl], hs _ (List.getElem_mem hl)⟩
    · simp at hp
  · intro p q n hp hq
    simp only [World.start] at hp hq
    split at hp <;> split at hq <;> simp_all

variable {need : C → Nat} {b b' : Book C} {w : World C}

/-- A mapping in a variable exists. -/
theorem Inv.mapped (h : Inv b w) {s m : Nat} {x : Obj} (hs : w.objs s = some x) (hm : x.mapping = some m) : w.maps m ≠ none :=
  (h.agrees.owned m).2 ⟨s, x, hs, hm⟩

theorem inv_remove (h : Inv b w) {p : Nat} (hp : ¬ b.Used p) :
    Inv ⟨b.vars, Function.update b.files p none⟩ { w with files := Function.update w.files p none } := by
  refine ⟨h.gone, h.moved, ?_, ?_, ?_, ?_, h.live, h.sole, h.paths⟩
  · intro s o hs
    obtain ⟨x, m, n, wr, g⟩ := h.own s o hs
    have hne : o.path ≠ p := fun e => hp ⟨s, o, hs, e⟩
    exact ⟨x, m, n, wr, by simpa [hne] using g⟩
  · intro q hq
    by_cases e : q = p
    · subst e; simp
    · simp only [Function.update_apply, e, if_false] at hq ⊢; exact h.absent q hq
  · intro q n hq
    by_cases e : q = p
    · subst e; simp at hq
    · simp only [Function.update_apply, e, if_false] at hq ⊢; exact h.here q n hq
  · intro q r n hq hr
    simp only [Function.update_apply] at hq hr
    split at hq <;> split at hr <;> first | simp at hq | simp at hr | exact h.inj q r n hq hr

theorem inv_create (h : Inv b w) {p : Nat} (hp : ¬ b.Used p) (c : C) {size : Nat} (hz : 0 < size) :
    Inv ⟨b.vars, Function.update b.files p (some c)⟩
      { w with files := Function.update w.files p (some w.nextNode)
               nodes := Function.update w.nodes w.nextNode (some ⟨c, size⟩), nextNode := w.nextNode + 1 } := by
  refine ⟨h.gone, h.moved, ?_, ?_, ?_, ?_, h.live, h.sole, h.paths⟩
  · intro s o hs
    obtain ⟨x, m, n, wr, g⟩ := h.own s o hs
    have hne : o.path ≠ p := fun e => hp ⟨s, o, hs, e⟩
    exact ⟨x, m, n, wr, by simpa [hne] using g⟩
  · intro q hq
    by_cases e : q = p
    · subst e; simp at hq
    · simp only [Function.update_apply, e, if_false] at hq ⊢; exact h.absent q hq
  · intro q n hq
    by_cases e : q = p
    · subst e
      simp only [Function.update_self, Option.some.injEq] at hq
      subst hq
      exact ⟨Nat.lt_succ_self _, ⟨c, size⟩, by simp, by simp, hz⟩
    · simp only [Function.update_apply, e, if_false] at hq ⊢
      have hh := h.here q n hq
      have hne : n ≠ w.nextNode := by omega
      simp only [hne, if_false]
      exact ⟨by omega, hh.2⟩
  · intro q r n hq hr
    simp only [Function.update_apply] at hq hr
    split at hq <;> split at hr
    · simp_all
    · have := (h.here r n hr).1
      injection hq; omega
    · have := (h.here q n hq).1
      injection hr; omega
    · exact h.inj q r n hq hr

theorem inv_rewrite (h : Inv b w) {p n : Nat} (hp : w.files p = some n) (g : File C) (hz : 0 < g.size) :
    Inv ⟨b.vars, Function.update b.files p (some g.value)⟩ { w with nodes := Function.update w.nodes n (some g) } := by
  refine ⟨h.gone, h.moved, h.own, ?_, ?_, h.inj, h.live, h.sole, h.paths⟩
  · intro q hq
    have hne : q ≠ p := by rintro rfl; simp_all
    simp only [Function.update_apply, hne, if_false]
    exact h.absent q hq
  · intro q k hq
    refine ⟨(h.here q k hq).1, ?_⟩
    by_cases e : q = p
    · subst e
      rw [hp] at hq
      injection hq with hq
      subst hq
      exact ⟨g, by simp, by simp, hz⟩
    · have hne : k ≠ n := fun e' => e (h.inj q p n (e' ▸ hq) hp)
      simpa [Function.update_apply, e, hne] using (h.here q k hq).2

theorem inv_resize (h : Inv b w) {p n : Nat} {f : File C} (hp : w.files p = some n) (hf : w.nodes n = some f) {z : Nat} (hz : 0 < z) :
    Inv b { w with nodes := Function.update w.nodes n (some ⟨f.value, z⟩) } := by
  have := inv_rewrite h hp ⟨f.value, z⟩ hz
  obtain ⟨-, f', hf', hb, -⟩ := h.here p n hp
  rw [hf] at hf'
  injection hf' with hf'
  subst hf'
  have e : Function.update b.files p (some f.value) = b.files := by rw [← hb]; exact Function.update_eq_self p b.files
  rw [e] at this
  exact this

theorem inv_unmap (h : Inv b w) {s m : Nat} {o : Owner} {x : Obj} (hv : b.vars s = some (some o)) (hs : w.objs s = some x)
    (hm : x.mapping = some m) :
    Inv ⟨Function.update b.vars s none, b.files⟩
      { w with maps := Function.update w.maps m none, objs := Function.update w.objs s none } := by
  refine ⟨?_, ?_, ?_, h.absent, h.here, h.inj, ?_, ?_, ?_⟩
  · intro t
    by_cases e : t = s
    · subst e; simp
    · simpa [Function.update_apply, e] using h.gone t
  · intro t ht
    by_cases e : t = s
    · subst e; simp at ht
    · simp only [Function.update_apply, e, if_false] at ht ⊢; exact h.moved t ht
  · intro t o' ht
    by_cases e : t = s
    · subst e; simp at ht
    · simp only [Function.update_apply, e, if_false] at ht ⊢
      obtain ⟨x', m', n, wr, g1, g2, g3, g⟩ := h.own t o' ht
      have hne : m' ≠ m := fun e' => e (h.sole t s x' x m g1 hs (e' ▸ g3) hm)
      exact ⟨x', m', n, wr, g1, g2, g3, by simpa [hne] using g⟩
  · intro k y hk
    by_cases e : k = m
    · subst e; simp at hk
    · simp only [Function.update_apply, e, if_false] at hk
      obtain ⟨h1, t, x', ht, hx'⟩ := h.live k y hk
      refine ⟨h1, t, x', ?_, hx'⟩
      have hne : t ≠ s := by rintro rfl; simp_all
      simpa [Function.update_apply, hne] using ht
  · intro t u x' y k ht hu
    by_cases e : t = s
    · subst e; simp at ht
    by_cases e' : u = s
    · subst e'; simp at hu
    simp only [Function.update_apply, e, e', if_false] at ht hu
    exact h.sole t u x' y k ht hu
  · intro t u o' o'' ht hu
    by_cases e : t = s
    · subst e; simp at ht
    by_cases e' : u = s
    · subst e'; simp at hu
    simp only [Function.update_apply, e, e', if_false] at ht hu
    exact h.paths t u o' o'' ht hu

theorem inv_map (h : Inv b w) {s m n nm : Nat} {o : Owner} {x : Obj} {wr : Bool} (hv : b.vars s = none) (hp : ¬ b.Used o.path)
    (hn : w.files o.path = some n) (hm : w.maps m = none) (hl : m < nm) (hl' : w.nextMap ≤ nm)
    (hx : x.path = some o.path ∧ x.mapping = some m ∧ x.roots = some m ∧ x.alloc = some m ∧ x.destroy = o.temporary)
    (hw : o.made = true → wr = true) :
    Inv ⟨Function.update b.vars s (some (some o)), b.files⟩
      { w with maps := Function.update w.maps m (some ⟨n, wr⟩), objs := Function.update w.objs s (some x), nextMap := nm } := by
  have old : ∀ t y, w.objs t = some y → y.mapping ≠ some m := fun t y ht e => h.mapped ht e hm
  refine ⟨?_, ?_, ?_, h.absent, h.here, h.inj, ?_, ?_, ?_⟩
  · intro t
    by_cases e : t = s
    · subst e; simp
    · simpa [Function.update_apply, e] using h.gone t
  · intro t ht
    by_cases e : t = s
    · subst e; simp at ht
    · simp only [Function.update_apply, e, if_false] at ht ⊢; exact h.moved t ht
  · intro t o' ht
    by_cases e : t = s
    · subst e
      simp only [Function.update_self, Option.some.injEq] at ht
      subst ht
      exact ⟨x, m, n, wr, by simp, hx.1, hx.2.1, hx.2.2.1, hx.2.2.2.1, hx.2.2.2.2, by simp, hn, hw⟩
    · simp only [Function.update_apply, e, if_false] at ht ⊢
      obtain ⟨x', m', n', wr', g1, g2, g3, g⟩ := h.own t o' ht
      have hne : m' ≠ m := fun e' => old t x' g1 (e' ▸ g3)
      exact ⟨x', m', n', wr', g1, g2, g3, by simpa [hne] using g⟩
  · intro k y hk
    by_cases e : k = m
    · subst e; exact ⟨hl, s, x, by simp, hx.2.1⟩
    · simp only [Function.update_apply, e, if_false] at hk
      obtain ⟨h1, t, x', ht, hx'⟩ := h.live k y hk
      refine ⟨by show k < nm; omega, t, x', ?_, hx'⟩
      have hne : t ≠ s := by rintro rfl; rw [(h.gone t).1 hv] at ht; simp at ht
      simpa [Function.update_apply, hne] using ht
  · intro t u x' y k ht hu
    simp only [Function.update_apply] at ht hu
    split at ht <;> split at hu <;> intro h1 h2
    · simp_all
    · injection ht with ht; subst ht
      exact absurd (by rw [h2, ← h1, hx.2.1]) (old u y hu)
    · injection hu with hu; subst hu
      exact absurd (by rw [h1, ← h2, hx.2.1]) (old t x' ht)
    · exact h.sole t u x' y k ht hu h1 h2
  · intro t u o' o'' ht hu
    simp only [Function.update_apply] at ht hu
    split at ht <;> split at hu <;> intro h1
    · simp_all
    · simp only [Option.some.injEq] at ht; subst ht
      exact absurd ⟨u, o'', hu, h1.symm⟩ hp
    · simp only [Option.some.injEq] at hu; subst hu
      exact absurd ⟨t, o', ht, h1⟩ hp
    · exact h.paths t u o' o'' ht hu h1

/-- Variables that own nothing come and go. -/
theorem inv_empty (h : Inv b w) {s : Nat} (hv : b.vars s = none ∨ b.vars s = some none) (v : Option Obj)
    (hx : ∀ x, v = some x → x.path = none ∧ x.mapping = none ∧ x.roots = none) :
    Inv ⟨Function.update b.vars s (v.map fun _ => none), b.files⟩ { w with objs := Function.update w.objs s v } := by
  have old : ∀ x, w.objs s = some x → x.mapping = none := by
    intro x ht
    rcases hv with hv | hv
    · rw [(h.gone s).1 hv] at ht; simp at ht
    · obtain ⟨o, g1, -, g3⟩ := h.moved s hv
      rw [ht] at g1; injection g1 with g1; subst g1; exact g3.1
  refine ⟨?_, ?_, ?_, h.absent, h.here, h.inj, ?_, ?_, ?_⟩
  · intro t
    by_cases e : t = s
    · subst e; simp
    · simpa [Function.update_apply, e] using h.gone t
  · intro t ht
    by_cases e : t = s
    · subst e
      cases v with
      | none => simp at ht
      | some x => exact ⟨x, by simp, hx x rfl⟩
    · simp only [Function.update_apply, e, if_false] at ht ⊢; exact h.moved t ht
  · intro t o' ht
    by_cases e : t = s
    · subst e; cases v <;> simp at ht
    · simp only [Function.update_apply, e, if_false] at ht ⊢; exact h.own t o' ht
  · intro k y hk
    obtain ⟨h1, t, x', ht, hx'⟩ := h.live k y hk
    refine ⟨h1, t, x', ?_, hx'⟩
    have hne : t ≠ s := by rintro rfl; rw [old x' ht] at hx'; simp at hx'
    simpa [Function.update_apply, hne] using ht
  · intro t u x' y k ht hu
    simp only [Function.update_apply] at ht hu
    split at ht <;> split at hu <;> intro h1 h2
    · simp_all
    · rw [(hx x' ht).2.1] at h1; simp at h1
    · rw [(hx y hu).2.1] at h2; simp at h2
    · exact h.sole t u x' y k ht hu h1 h2
  · intro t u o' o'' ht hu
    by_cases e : t = s
    · subst e; cases v <;> simp at ht
    by_cases e' : u = s
    · subst e'; cases v <;> simp at hu
    simp only [Function.update_apply, e, e', if_false] at ht hu
    exact h.paths t u o' o'' ht hu

/-- After a storage was closed, nobody owns its file. -/
theorem unused (h : Inv b w) {s : Nat} {o : Owner} (hv : b.vars s = some (some o)) {files : Nat → Option C} :
    ¬ (Book.mk (Function.update b.vars s none) files).Used o.path := by
  rintro ⟨t, o', ht, hp⟩
  by_cases e : t = s
  · subst e; simp at ht
  · simp only [Function.update_apply, e, if_false] at ht
    exact e (h.paths t s o' o ht hv hp)

/-- Everything moves from `s` to `d`, which owns nothing. -/
theorem inv_move (h : Inv b w) {s d : Nat} {x : Option Owner} {o : Obj} (hv : b.vars s = some x) (hs : w.objs s = some o)
    (hd : b.vars d = none ∨ b.vars d = some none) (hn : d ≠ s) :
    Inv ⟨Function.update (Function.update b.vars s (some none)) d (some x), b.files⟩ (put (put w s (emptied o)) d o) := by
  cases x with
  | none =>
    obtain ⟨o', g1, g2, g3⟩ := h.moved s hv
    rw [hs] at g1
    injection g1 with g1
    subst g1
    have h1 := inv_empty h (s := s) (.inr hv) (some (emptied o)) (by simp [emptied])
    have h2 := inv_empty h1 (s := d) (by simpa [Function.update_apply, hn] using hd) (some o) (by rintro x ⟨⟩; exact ⟨g2, g3⟩)
    simpa [put] using h2
  | some ow =>
    obtain ⟨x, m, n, wr, g1, g2, g3, g4, g5, g6, g7, g8, g9⟩ := h.own s ow hv
    rw [hs] at g1
    injection g1 with g1
    subst g1
    have h1 := inv_unmap h hv hs g3
    have h2 := inv_empty h1 (s := s) (.inl (by simp)) (some (emptied o)) (by simp [emptied])
    have h3 := inv_empty h2 (s := d) (by simpa [Function.update_apply, hn] using hd) none (by simp)
    have h4 := inv_map (o := ow) (m := m) (nm := w.nextMap) (n := n) (wr := wr) (x := o) (s := d) h3 (by simp)
      (by
        rintro ⟨t, o', ht, hp⟩
        by_cases e : t = d
        · subst e; simp at ht
        by_cases e' : t = s
        · subst e'; simp [e] at ht
        simp only [Function.update_apply, e, e', if_false] at ht
        exact e' (h.paths t s o' ow ht hv hp))
      g8 (by simp) (h.live m _ g7).1 (Nat.le_refl _) ⟨g2, g3, g4, g5, g6⟩ g9
    have e : Function.update w.maps m (some ⟨n, wr⟩) = w.maps := by rw [← g7]; exact Function.update_eq_self m w.maps
    simp only [Function.update_idem, e] at h4
    simpa [put] using h4

theorem step_inv {op : Op C} (h : Inv b w) (hc : Careful b op) (hd : Does b op b') : ∃ w', step need w op = .ok w' ∧ Inv b' w' := by
  cases hd with
  | construct s p c size d sh hv hp hs =>
    have h0 := (h.gone s).1 hv
    refine ⟨_, by simp [step, h0, construct, destroyFile, close, remove, createOnly, put, findRoots, prepareAllocator]; rfl, ?_⟩
    have h1 := inv_create h hp c hs
    have h2 := inv_map (o := ⟨p, d, true⟩) (m := w.nextMap) (nm := w.nextMap + 1) (n := w.nextNode) (wr := true)
      (x := ⟨some p, some w.nextMap, some w.nextMap, some w.nextMap, d, sh⟩) (s := s) h1 hv hp (by simp)
      (by cases hm : w.maps w.nextMap with
          | none => rfl
          | some y => exact absurd (h.live _ _ hm).1 (by omega))
      (by omega) (Nat.le_succ _) (by simp) (by simp)
    simpa using h2
  | openStorage s p hv hp hf =>
    have h0 := (h.gone s).1 hv
    cases hn : w.files p with
    | none => exact absurd (h.absent p hn) hf
    | some n =>
      refine ⟨_, by simp [step, h0, openStorage, openFile, put, findRoots, prepareAllocator, hn]; rfl, ?_⟩
      exact inv_map (o := ⟨p, false, false⟩) (m := w.nextMap) (nm := w.nextMap + 1) (n := n) (wr := false)
        (x := ⟨some p, some w.nextMap, some w.nextMap, some w.nextMap, false, false⟩) (s := s) h hv hp hn
        (by cases hm : w.maps w.nextMap with
            | none => rfl
            | some y => exact absurd (h.live _ _ hm).1 (by omega))
        (by omega) (Nat.le_succ _) (by simp) (by simp)
  | write s o f v hv hm hf =>
    obtain ⟨x, m, n, wr, g1, g2, g3, g4, g5, g6, g7, g8, g9⟩ := h.own s o hv
    obtain ⟨e1, y, e2, e3, e4⟩ := h.here _ _ g8
    have g10 := g9 hm
    refine ⟨_, by simp [step, write, g1, g4, g5, g7, g10, e2]; rfl, ?_⟩
    have := inv_rewrite h g8 ⟨f y.value, y.size⟩ e4
    rw [hf] at e3
    injection e3 with e3
    rw [e3]
    exact e3 ▸ this
  | grow s o size hv =>
    obtain ⟨x, m, n, wr, g1, g2, g3, g4, g5, g6, g7, g8, g9⟩ := h.own s o hv
    obtain ⟨e1, y, e2, e3, e4⟩ := h.here _ _ g8
    by_cases hz : size > y.size
    · refine ⟨_, by simp [step, grow, g1, growFile, sizeOf, fileOf, g2, g3, g7, e2, hz, close, resize, g8, openFile, put, findRoots, prepareAllocator]; rfl, ?_⟩
      have h1 := inv_resize (inv_unmap h hv g1 g3) (z := size) g8 e2 (by omega)
      have h2 := inv_map (o := o) (m := w.nextMap) (nm := w.nextMap + 1) (n := n) (wr := true)
        (x := ⟨some o.path, some w.nextMap, some w.nextMap, some w.nextMap, x.destroy, x.shrink⟩) (s := s) h1 (by simp)
        (unused h hv) g8
        (by cases hm : w.maps w.nextMap with
            | none => simp [Function.update_apply, hm]
            | some y => exact absurd (h.live _ _ hm).1 (by omega))
        (by omega) (Nat.le_succ _) (by simp [g6]) (by simp)
      have e : Function.update b.vars s (some (some o)) = b.vars := by rw [← hv]; exact Function.update_eq_self s b.vars
      simp only [Function.update_idem, e, g6] at h2
      simpa [g2, g6] using h2
    · refine ⟨_, by simp [step, grow, g1, growFile, sizeOf, fileOf, g3, g7, e2, hz, put, findRoots, prepareAllocator]; rfl, ?_⟩
      have e : Function.update w.objs s (some { x with mapping := some m, roots := some m, alloc := some m }) = w.objs := by
        have : some { x with mapping := some m, roots := some m, alloc := some m } = w.objs s := by
          rw [g1, ← g3]
          cases x; simp_all
        rw [this]; exact Function.update_eq_self s w.objs
      simp only [e]
      exact h
  | dropGrow s o c hv =>
    obtain ⟨x, m, n, wr, g1, g2, g3, g4, g5, g6, g7, g8, g9⟩ := h.own s o hv
    obtain ⟨e1, y, e2, e3, e4⟩ := h.here _ _ g8
    have hz : 2 * y.size > y.size := by omega
    refine ⟨_, by simp [step, dropGrow, dropGrowTo, g1, dropGrowFile, sizeOf, fileOf, g2, g3, g7, e2, hz, destroyFile, remove, close, createOnly, put, findRoots, prepareAllocator]; rfl, ?_⟩
    have h1 := inv_create (inv_unmap h hv g1 g3) (p := o.path) (unused h hv) c (size := 2 * y.size) (by omega)
    have h2 := inv_map (o := o) (m := w.nextMap) (nm := w.nextMap + 1) (n := w.nextNode) (wr := true)
      (x := ⟨some o.path, some w.nextMap, some w.nextMap, some w.nextMap, x.destroy, x.shrink⟩) (s := s) h1 (by simp)
      (unused h hv) (by simp)
      (by cases hm : w.maps w.nextMap with
          | none => simp [Function.update_apply, hm]
          | some y => exact absurd (h.live _ _ hm).1 (by omega))
      (by omega) (Nat.le_succ _) (by simp [g6]) (by simp)
    have e : Function.update b.vars s (some (some o)) = b.vars := by rw [← hv]; exact Function.update_eq_self s b.vars
    simp only [Function.update_idem, e] at h2
    simpa [g2] using h2
  | shrinkToFit s o hv => exact absurd hc (by simp [Careful])
  | moveConstruct d s x hv hd =>
    cases hs : w.objs s with
    | none => rw [(h.gone s).2 hs] at hv; simp at hv
    | some o =>
      exact ⟨_, by simp [step, moveConstruct, hs, (h.gone d).1 hd],
        inv_move h hv hs (.inl hd) (by rintro rfl; rw [hd] at hv; simp at hv)⟩
  | moveSelf s x hv =>
    cases hs : w.objs s with
    | none => rw [(h.gone s).2 hs] at hv; simp at hv
    | some o => exact ⟨w, by simp [step, moveAssign, hs], h⟩
  | moveAssign d s x y hv hd hn =>
    have hy : b.vars d = some none := by simpa [Careful, hn] using hc
    rw [hd] at hy
    injection hy with hy
    subst hy
    cases hs : w.objs s with
    | none => rw [(h.gone s).2 hs] at hv; simp at hv
    | some o =>
      obtain ⟨o', g1, -, -⟩ := h.moved d hd
      exact ⟨_, by simp [step, moveAssign, hs, g1, hn], inv_move h hv hs (.inr hd) hn⟩
  | destruct s x hv =>
    cases x with
    | none =>
      obtain ⟨o, g1, g2, g3, -⟩ := h.moved s hv
      have hf : finish need w o = .ok w := by
        simp only [finish, shrinkFile, destroyFile, close, g3, g2, resize, remove]
        split
        · rfl
        · split <;> rfl
      exact ⟨_, by simp [step, destruct, g1, hf], inv_empty h (s := s) (.inr hv) none (by simp)⟩
    | some o =>
      obtain ⟨x, m, n, wr, g1, g2, g3, g4, g5, g6, g7, g8, g9⟩ := h.own s o hv
      obtain ⟨e1, y, e2, e3, e4⟩ := h.here _ _ g8
      have h1 := inv_unmap h hv g1 g3
      by_cases ht : o.temporary = true
      · refine ⟨_, by simp [step, destruct, g1, finish, g6, ht, destroyFile, close, g3, remove, g2]; rfl, ?_⟩
        have h2 := inv_remove h1 (p := o.path) (unused h hv)
        simpa [released, ht] using h2
      · have ht' : o.temporary = false := by simpa using ht
        by_cases hz : x.shrink = true
        · refine ⟨_, by simp [step, destruct, g1, finish, g6, ht', hz, shrinkFile, close, g3, resize, g2, g8, e2]; rfl, ?_⟩
          have h2 := inv_resize h1 (z := need y.value + 1) g8 e2 (by omega)
          simpa [released, ht'] using h2
        · refine ⟨_, by simp [step, destruct, g1, finish, g6, ht', hz, close, g3]; rfl, ?_⟩
          simpa [released, ht'] using h1

theorem runs_inv {ops : List (Op C)} (h : Inv b w) (hr : Runs Careful b ops b') : ∃ w', run need w ops = .ok w' ∧ Inv b' w' := by
  induction hr generalizing w with
  | nil b => exact ⟨w, rfl, h⟩
  | cons b b₁ b₂ op ops hp hd _ ih =>
    obtain ⟨w₁, h1, h2⟩ := step_inv (need := need) h hp hd
    obtain ⟨w₂, h3, h4⟩ := ih h2
    exact ⟨w₂, by simp [run, h1, h3], h4⟩

/-- **C100.**  The full statement is this one without `Careful`; it is false (`assign_fails`, `shrink_fails`).  Whatever is done with
storages in any number of variables, nothing undefined happens and no exception is thrown, everyone sees what is in their storage, the
files are as they should be, and every mapping has exactly one owner. -/
theorem owned_partial (need : C → Nat) {old : List (File C)} (hs : ∀ f ∈ old, 0 < f.size) {ops : List (Op C)} {b : Book C}
    (hr : Runs Careful (Book.start old) ops b) : ∃ w, run need (World.start old) ops = .ok w ∧ Agrees b w := by
  obtain ⟨w, h1, h2⟩ := runs_inv (need := need) (inv_start old hs) hr
  exact ⟨w, h1, h2.agrees⟩

/-! ### When all have gone -/

/-- A file that is only made as a temporary one is there only while somebody owns it. -/
structure Temp (p : Nat) (b : Book C) : Prop where
  used : b.files p ≠ none → b.Used p
  temp : ∀ s o, b.vars s = some (some o) → o.path = p → o.temporary = true
  one : ∀ s t o o', b.vars s = some (some o) → b.vars t = some (some o') → o.path = p → o'.path = p → s = t

/-- A file that is only made to stay stays. -/
structure Stays (p : Nat) (b : Book C) : Prop where
  temp : ∀ s o, b.vars s = some (some o) → o.path = p → o.temporary = false

theorem temp_step {op : Op C} {p : Nat} (h : Temp p b) (hd : Does b op b')
    (ht : ∀ s c size d sh, op = Op.construct s p c size d sh → d = true) : Temp p b' := by
  obtain ⟨h1, h2, h3⟩ := h
  simp only [Book.Used] at h1
  cases hd with
  | construct s q c size d sh hv hp hs =>
    have hq : q = p → d = true := fun e => ht s c size d sh (by rw [e])
    simp only [Book.Used] at hp
    refine ⟨fun hf => ?_, ?_, ?_⟩
    · by_cases e : q = p
      · exact ⟨s, ⟨q, d, true⟩, by simp, e⟩
      · have e' : p ≠ q := fun x => e x.symm
        obtain ⟨t, o, g1, g2⟩ := h1 (by simpa [Function.update_apply, e'] using hf)
        have : t ≠ s := by rintro rfl; rw [hv] at g1; simp at g1
        exact ⟨t, o, by simpa [Function.update_apply, this] using g1, g2⟩
    all_goals simp only [Function.update_apply] at *; clear ht; grind
  | moveAssign d s x y hv hd hn =>
    cases y with
    | none => constructor <;> simp only [Book.Used, released, Function.update_apply] at * <;> grind
    | some o =>
      cases ho : o.temporary <;> constructor <;> simp [Book.Used, released, ho, Function.update_apply] <;> grind
  | destruct s x hv =>
    cases x with
    | none => constructor <;> simp only [Book.Used, released, Function.update_apply] at * <;> grind
    | some o =>
      cases ho : o.temporary <;> constructor <;> simp [Book.Used, released, ho, Function.update_apply] <;> grind
  | _ => constructor <;> (try simp only [Book.Used, Function.update_apply] at *) <;> grind

theorem stays_step {op : Op C} {p : Nat} (h : Stays p b) (hd : Does b op b')
    (ht : ∀ s c size d sh, op = Op.construct s p c size d sh → d = false) :
    Stays p b' ∧ (b.files p ≠ none → b'.files p ≠ none) := by
  obtain ⟨h1⟩ := h
  cases hd with
  | construct s q c size d sh hv hp hs =>
    have hq : q = p → d = false := fun e => ht s c size d sh (by rw [e])
    refine ⟨⟨?_⟩, ?_⟩ <;> simp only [Function.update_apply] at * <;> clear ht <;> grind
  | moveAssign d s x y hv hd hn =>
    cases y with
    | none => refine ⟨⟨?_⟩, ?_⟩ <;> simp only [released, Function.update_apply] at * <;> grind
    | some o =>
      cases ho : o.temporary <;> refine ⟨⟨?_⟩, ?_⟩ <;> simp [released, ho, Function.update_apply] <;> grind
  | destruct s x hv =>
    cases x with
    | none => refine ⟨⟨?_⟩, ?_⟩ <;> simp only [released, Function.update_apply] at * <;> grind
    | some o =>
      cases ho : o.temporary <;> refine ⟨⟨?_⟩, ?_⟩ <;> simp [released, ho, Function.update_apply] <;> grind
  | _ => refine ⟨⟨?_⟩, ?_⟩ <;> (try simp only [Function.update_apply] at *) <;> grind

theorem temp_runs {P : Book C → Op C → Prop} {ops : List (Op C)} {p : Nat} (hr : Runs P b ops b') (h : Temp p b)
    (ht : ∀ s c size d sh, Op.construct s p c size d sh ∈ ops → d = true) : Temp p b' := by
  induction hr with
  | nil b => exact h
  | cons b b₁ b₂ op ops hp hd hr ih =>
    exact ih (temp_step h hd fun s c size d sh e => ht s c size d sh (e ▸ List.mem_cons_self))
      fun s c size d sh hm => ht s c size d sh (List.mem_cons_of_mem _ hm)

theorem stays_runs {P : Book C → Op C → Prop} {ops : List (Op C)} {p : Nat} (hr : Runs P b ops b') (h : Stays p b)
    (ht : ∀ s c size d sh, Op.construct s p c size d sh ∈ ops → d = false)
    (hf : b.files p ≠ none ∨ ∃ s c size d sh, Op.construct s p c size d sh ∈ ops) : b'.files p ≠ none := by
  induction hr with
  | nil b => simpa using hf
  | cons b b₁ b₂ op ops hp hd hr ih =>
    obtain ⟨g1, g2⟩ := stays_step h hd fun s c size d sh e => ht s c size d sh (e ▸ List.mem_cons_self)
    refine ih g1 (fun s c size d sh hm => ht s c size d sh (List.mem_cons_of_mem _ hm)) ?_
    rcases hf with hf | ⟨s, c, size, d, sh, hf⟩
    · exact .inl (g2 hf)
    · rcases List.mem_cons.1 hf with e | hf
      · subst e
        cases hd
        exact .inl (by simp)
      · exact .inr ⟨s, c, size, d, sh, hf⟩

/-- **C100.**  When everything has been closed, nothing is mapped any more, no temporary file is left behind and no other file is
missing. -/
theorem closed_partial (need : C → Nat) {old : List (File C)} (hs : ∀ f ∈ old, 0 < f.size) {ops : List (Op C)} {b : Book C}
    (hr : Runs Careful (Book.start old) ops b) (hg : ∀ s, b.vars s = none) :
    ∃ w, run need (World.start old) ops = .ok w ∧ (∀ s, w.objs s = none) ∧ (∀ m, w.maps m = none) ∧
      (∀ p, old.length ≤ p → (∀ s c size d sh, Op.construct s p c size d sh ∈ ops → d = true) → content w p = none) ∧
      (∀ p, (p < old.length ∨ ∃ s c size d sh, Op.construct s p c size d sh ∈ ops) →
        (∀ s c size d sh, Op.construct s p c size d sh ∈ ops → d = false) → content w p ≠ none) := by
  obtain ⟨w, h1, h2⟩ := owned_partial need hs hr
  have ho : ∀ s, w.objs s = none := fun s => by simpa [hg s] using h2.vars s
  refine ⟨w, h1, ho, ?_, ?_, ?_⟩
  · intro m
    by_contra hm
    obtain ⟨s, o, g1, -⟩ := (h2.owned m).1 hm
    rw [ho s] at g1
    simp at g1
  · intro p hp ht
    have h0 : Temp p (Book.start old) := by
      refine ⟨?_, by simp [Book.start], by simp [Book.start]⟩
      intro hf
      exact absurd (by simp [Book.start, List.getElem?_eq_none hp]) hf
    rw [h2.files p]
    by_contra hf
    obtain ⟨s, o, g1, -⟩ := (temp_runs hr h0 ht).used hf
    rw [hg s] at g1
    simp at g1
  · intro p hp ht
    rw [h2.files p]
    refine stays_runs hr ⟨by simp [Book.start]⟩ ht ?_
    rcases hp with hp | hp
    · exact .inl (by simp [Book.start, hp])
    · exact .inr hp

/-! ### Examples and what is false -/

/-- As many bytes as there are numbers in a storage. -/
def bytes (l : List Nat) : Nat := l.length

/-- A temporary storage (file 7) and one to stay (file 8), made, moved into other variables, filled, grown and closed; file 0 was there
before and is opened (app/network.hpp 158-175, 217-236, 288-327). -/
def life : List (Op (List Nat)) :=
  [.construct 0 7 [] 4 true false, .construct 1 8 [] 4 false true, .moveConstruct 2 0, .moveConstruct 3 1, .destruct 0, .destruct 1,
   .write 2 (fun l => l ++ [1]), .grow 2 8, .write 3 (fun l => l ++ [2]), .dropGrow 3 [], .write 3 (fun l => l ++ [3]), .openStorage 4 0,
   .destruct 2, .destruct 3, .destruct 4]

/-- The book after the example. -/
theorem life_runs : ∃ b, Runs Careful (Book.start [⟨[5], 3⟩]) life b ∧ (∀ s, b.vars s = none) ∧ b.files 0 = some [5] ∧ b.files 7 = none ∧
    b.files 8 = some [3] := by
  refine ⟨?_, ?_, ?_⟩
  rotate_left
  · unfold life
    repeat' first
      | exact Runs.nil _
      | refine Runs.cons _ _ _ _ _ (by simp [Careful]) (Does.construct _ _ _ _ _ _ _ rfl ?_ (by decide)) ?_
      | refine Runs.cons _ _ _ _ _ (by simp [Careful]) (Does.openStorage _ _ _ rfl ?_ (fun h => absurd (show some [5] = none from h) (by simp))) ?_
      | refine Runs.cons _ _ _ _ _ (by simp [Careful]) (Does.write _ _ _ _ _ rfl rfl rfl) ?_
      | refine Runs.cons _ _ _ _ _ (by simp [Careful]) (Does.grow _ _ _ _ rfl) ?_
      | refine Runs.cons _ _ _ _ _ (by simp [Careful]) (Does.dropGrow _ _ _ _ rfl) ?_
      | refine Runs.cons _ _ _ _ _ (by simp [Careful]) (Does.moveConstruct _ _ _ _ rfl rfl) ?_
      | refine Runs.cons _ _ _ _ _ (by simp [Careful]) (Does.destruct _ _ _ rfl) ?_
    all_goals
      rintro ⟨s, o, h, e⟩
      simp only [Book.start, Function.update_apply] at h
      grind
  · refine ⟨fun s => ?_, rfl, rfl, rfl⟩
    simp only [Book.start, Function.update_apply]
    grind

example : ∃ w, run bytes (World.start [⟨[5], 3⟩]) life = .ok w ∧ (∀ m, w.maps m = none) ∧ content w 0 = some [5] ∧ content w 7 = none ∧
    content w 8 = some [3] := by
  obtain ⟨b, h1, h2, h3, h4, h5⟩ := life_runs
  obtain ⟨w, g1, g2⟩ := owned_partial bytes (by simp) h1
  obtain ⟨w', g3, -, g4, -⟩ := closed_partial bytes (by simp) h1 h2
  rw [g1] at g3
  injection g3 with g3
  subst g3
  exact ⟨w, g1, g4, by rw [g2.files, h3], by rw [g2.files, h4], by rw [g2.files, h5]⟩

/-- A storage that is assigned to a variable that owns another one: the other is never closed, its temporary file never removed. -/
theorem assign_fails : ¬ ∀ (ops : List (Op (List Nat))) (b : Book (List Nat)), Runs (fun _ _ => True) (Book.start []) ops b →
    ∃ w, run bytes (World.start []) ops = .ok w ∧ Agrees b w := by
  intro h
  obtain ⟨w, h1, h2⟩ := h
    [.construct 0 7 [] 4 true false, .construct 1 8 [] 4 true false, .moveAssign 0 1, .destruct 0, .destruct 1] _
    (Runs.cons _ _ _ _ _ trivial (Does.construct _ _ _ _ _ _ _ rfl (by simp [Book.start, Book.Used]) (by decide))
      (Runs.cons _ _ _ _ _ trivial (Does.construct _ _ _ _ _ _ _ rfl
          (by rintro ⟨s, o, h, e⟩; simp only [Book.start, Function.update_apply] at h; grind) (by decide))
        (Runs.cons _ _ _ _ _ trivial (Does.moveAssign _ _ _ _ _ rfl rfl (by decide))
          (Runs.cons _ _ _ _ _ trivial (Does.destruct _ _ _ rfl) (Runs.cons _ _ _ _ _ trivial (Does.destruct _ _ _ rfl) (Runs.nil _))))))
  have h3 := h2.files 7
  injection h1 with h1
  subst h1
  exact absurd (show some [] = (none : Option (List Nat)) from h3) (by simp)

/-- What is left of it: the mapping and the file. -/
theorem assign_leaves_fails : ∃ w : World (List Nat),
    run bytes (World.start []) [.construct 0 7 [] 4 true false, .construct 1 8 [] 4 true false, .moveAssign 0 1, .destruct 0, .destruct 1]
      = .ok w ∧ (∀ s, w.objs s = none) ∧ w.maps 0 ≠ none ∧ content w 7 = some [] := by
  refine ⟨_, rfl, fun s => ?_, fun h => ?_, rfl⟩
  · simp only [put, remove, close, World.start, Function.update_apply, destroyFile, findRoots, prepareAllocator, emptied]
    grind
  · exact absurd (show some (⟨0, true⟩ : Mapping) = none from h) (by simp)

/-- A storage that is shrunk while it is used: its pointers lead nowhere. -/
theorem shrink_fails : ¬ ∀ (ops : List (Op (List Nat))) (b : Book (List Nat)), Runs (fun _ _ => True) (Book.start []) ops b →
    ∃ w, run bytes (World.start []) ops = .ok w ∧ Agrees b w := by
  intro h
  obtain ⟨w, h1, h2⟩ := h [.construct 0 7 [1] 4 true false, .shrinkToFit 0] _
    (Runs.cons _ _ _ _ _ trivial (Does.construct _ _ _ _ _ _ _ rfl (by simp [Book.start, Book.Used]) (by decide))
      (Runs.cons _ _ _ _ _ trivial (Does.shrinkToFit _ _ _ rfl) (Runs.nil _)))
  obtain ⟨v, h3, h4⟩ := h2.sees 0 ⟨7, true, true⟩ rfl
  injection h1 with h1
  subst h1
  exact absurd (show (Outcome.ub : Outcome (List Nat)) = .ok v from h4) (by simp)

/-- Two storages that use the same file, as two runs of the program with the same directory: the end of the first, temporary one takes
the file of the second. -/
theorem same_file_fails : ∃ w : World (List Nat),
    run bytes (World.start []) [.construct 0 7 [1] 4 true false, .construct 1 7 [2] 4 false true, .destruct 0] = .ok w ∧
      see w 1 = .ok [2] ∧ content w 7 = none :=
  ⟨_, rfl, rfl, rfl⟩

/-! ### Storages in memory -/

/-- Who has a storage in memory: `some (some n)` with `n` blocks, `some none` nothing any more. -/
inductive MemDoes : (Nat → Option (Option Nat)) → MemOp → (Nat → Option (Option Nat)) → Prop
  | construct (v : Nat → Option (Option Nat)) (s : Nat) (h : v s = none) : MemDoes v (.construct s) (Function.update v s (some (some 0)))
  | allocate (v : Nat → Option (Option Nat)) (s n : Nat) (h : v s = some (some n)) :
      MemDoes v (.allocate s) (Function.update v s (some (some (n + 1))))
  | moveConstruct (v : Nat → Option (Option Nat)) (d s : Nat) (x : Option Nat) (h : v s = some x) (hd : v d = none) :
      MemDoes v (.moveConstruct d s) (Function.update (Function.update v s (some none)) d (some x))
  | moveSelf (v : Nat → Option (Option Nat)) (s : Nat) (x : Option Nat) (h : v s = some x) : MemDoes v (.moveAssign s s) v
  | moveAssign (v : Nat → Option (Option Nat)) (d s : Nat) (x y : Option Nat) (h : v s = some x) (hd : v d = some y) (hn : d ≠ s) :
      MemDoes v (.moveAssign d s) (Function.update (Function.update v s (some none)) d (some x))
  | destruct (v : Nat → Option (Option Nat)) (s : Nat) (x : Option Nat) (h : v s = some x) :
      MemDoes v (.destruct s) (Function.update v s none)

/-- Several operations, each of them as `P` demands. -/
inductive MemRuns (P : (Nat → Option (Option Nat)) → MemOp → Prop) :
    (Nat → Option (Option Nat)) → List MemOp → (Nat → Option (Option Nat)) → Prop
  | nil (v : Nat → Option (Option Nat)) : MemRuns P v [] v
  | cons (v v' v'' : Nat → Option (Option Nat)) (op : MemOp) (ops : List MemOp) (hp : P v op) (h : MemDoes v op v')
      (hr : MemRuns P v' ops v'') : MemRuns P v (op :: ops) v''

/-- Nobody who still has blocks is assigned another storage. -/
def MemCareful (v : Nat → Option (Option Nat)) : MemOp → Prop
  | .moveAssign d s => d = s ∨ v d = some none ∨ v d = some (some 0)
  | _ => True

/-- The invariant: the allocator of a storage leads to its own counter, which exists and is nobody else's. -/
structure MemInv (v : Nat → Option (Option Nat)) (h : Heap) : Prop where
  gone : ∀ s, v s = none ↔ h.objs s = none
  moved : ∀ s, v s = some none → h.objs s = some ⟨none, none⟩
  own : ∀ s n, v s = some (some n) → ∃ k, h.objs s = some ⟨some k, some (k, n)⟩ ∧ h.alive k = true
  live : ∀ k, h.alive k = true → k < h.next ∧ ∃ s c, h.objs s = some ⟨some k, c⟩
  sole : ∀ s t k c c', h.objs s = some ⟨some k, c⟩ → h.objs t = some ⟨some k, c'⟩ → s = t

theorem mem_drop {v : Nat → Option (Option Nat)} {h : Heap} {s n k : Nat} (hi : MemInv v h) (hv : v s = some (some n))
    (hs : h.objs s = some ⟨some k, some (k, n)⟩) :
    MemInv (Function.update v s none) { h with alive := Function.update h.alive k false, objs := Function.update h.objs s none } := by
  refine ⟨?_, ?_, ?_, ?_, ?_⟩
  · intro t
    by_cases e : t = s
    · subst e; simp
    · simpa [Function.update_apply, e] using hi.gone t
  · intro t ht
    by_cases e : t = s
    · subst e; simp at ht
    · simp only [Function.update_apply, e, if_false] at ht ⊢; exact hi.moved t ht
  · intro t n' ht
    by_cases e : t = s
    · subst e; simp at ht
    · simp only [Function.update_apply, e, if_false] at ht ⊢
      obtain ⟨k', g1, g2⟩ := hi.own t n' ht
      have hne : k' ≠ k := fun e' => e (hi.sole t s k _ _ (e' ▸ g1) hs)
      exact ⟨k', g1, by simp [hne, g2]⟩
  · intro k' hk
    by_cases e : k' = k
    · subst e; simp at hk
    · simp only [Function.update_apply, e, if_false] at hk
      obtain ⟨g1, t, c, g2⟩ := hi.live k' hk
      have hne : t ≠ s := by rintro rfl; rw [hs] at g2; simp at g2; exact e g2.1.symm
      exact ⟨g1, t, c, by simp [Function.update_apply, hne, g2]⟩
  · intro t u k' c c' ht hu
    by_cases e : t = s
    · subst e; simp at ht
    by_cases e' : u = s
    · subst e'; simp at hu
    simp only [Function.update_apply, e, e', if_false] at ht hu
    exact hi.sole t u k' c c' ht hu

theorem mem_add {v : Nat → Option (Option Nat)} {h : Heap} {s n k nx : Nat} (hi : MemInv v h) (hv : v s = none)
    (hk : h.alive k = false) (hl : k < nx) (hx : h.next ≤ nx) :
    MemInv (Function.update v s (some (some n)))
      { alive := Function.update h.alive k true, objs := Function.update h.objs s (some ⟨some k, some (k, n)⟩), next := nx } := by
  have old : ∀ t c, h.objs t = some ⟨some k, c⟩ → False := by
    intro t c ht
    cases hb : v t with
    | none => rw [(hi.gone t).1 hb] at ht; simp at ht
    | some y =>
      cases y with
      | none => rw [hi.moved t hb] at ht; simp at ht
      | some y =>
        obtain ⟨k', g1, g2⟩ := hi.own t y hb
        rw [ht] at g1
        simp only [Option.some.injEq, MemObj.mk.injEq] at g1
        rw [← g1.1, hk] at g2
        simp at g2
  refine ⟨?_, ?_, ?_, ?_, ?_⟩
  · intro t
    by_cases e : t = s
    · subst e; simp
    · simpa [Function.update_apply, e] using hi.gone t
  · intro t ht
    by_cases e : t = s
    · subst e; simp at ht
    · simp only [Function.update_apply, e, if_false] at ht ⊢; exact hi.moved t ht
  · intro t n' ht
    by_cases e : t = s
    · subst e
      simp only [Function.update_self, Option.some.injEq] at ht
      exact ⟨k, by simp [ht], by simp⟩
    · simp only [Function.update_apply, e, if_false] at ht ⊢
      obtain ⟨k', g1, g2⟩ := hi.own t n' ht
      exact ⟨k', g1, by simp [g2]⟩
  · intro k' hk'
    by_cases e : k' = k
    · subst e; exact ⟨hl, s, some (k', n), by simp⟩
    · simp only [Function.update_apply, e, if_false] at hk'
      obtain ⟨g1, t, c, g2⟩ := hi.live k' hk'
      have hne : t ≠ s := by rintro rfl; rw [(hi.gone t).1 hv] at g2; simp at g2
      exact ⟨Nat.lt_of_lt_of_le g1 hx, t, c, by simp [Function.update_apply, hne, g2]⟩
  · intro t u k' c c' ht hu
    simp only [Function.update_apply] at ht hu
    split at ht <;> split at hu
    · simp_all
    · simp only [Option.some.injEq, MemObj.mk.injEq] at ht
      rw [← ht.1] at hu
      exact (old u c' hu).elim
    · simp only [Option.some.injEq, MemObj.mk.injEq] at hu
      rw [← hu.1] at ht
      exact (old t c ht).elim
    · exact hi.sole t u k' c c' ht hu

theorem mem_null {v : Nat → Option (Option Nat)} {h : Heap} {s : Nat} (hi : MemInv v h) (hv : v s = none ∨ v s = some none) (z : Bool) :
    MemInv (Function.update v s (if z then some none else none))
      { h with objs := Function.update h.objs s (if z then some ⟨none, none⟩ else none) } := by
  have old : ∀ k c, h.objs s = some ⟨some k, c⟩ → False := by
    intro k c hs
    rcases hv with hv | hv
    · rw [(hi.gone s).1 hv] at hs; simp at hs
    · rw [hi.moved s hv] at hs; simp at hs
  refine ⟨?_, ?_, ?_, ?_, ?_⟩
  · intro t
    by_cases e : t = s
    · subst e; cases z <;> simp
    · simpa [Function.update_apply, e] using hi.gone t
  · intro t ht
    by_cases e : t = s
    · subst e; cases z <;> simp at ht ⊢
    · simp only [Function.update_apply, e, if_false] at ht ⊢; exact hi.moved t ht
  · intro t n' ht
    by_cases e : t = s
    · subst e; cases z <;> simp at ht
    · simp only [Function.update_apply, e, if_false] at ht ⊢; exact hi.own t n' ht
  · intro k' hk'
    obtain ⟨g1, t, c, g2⟩ := hi.live k' hk'
    have hne : t ≠ s := by rintro rfl; exact old _ _ g2
    exact ⟨g1, t, c, by simp [Function.update_apply, hne, g2]⟩
  · intro t u k' c c' ht hu
    by_cases e : t = s
    · subst e; cases z <;> simp at ht
    by_cases e' : u = s
    · subst e'; cases z <;> simp at hu
    simp only [Function.update_apply, e, e', if_false] at ht hu
    exact hi.sole t u k' c c' ht hu

theorem mem_move {v : Nat → Option (Option Nat)} {h : Heap} {s d : Nat} {x : Option Nat} {o : MemObj} (hi : MemInv v h) (hv : v s = some x)
    (hs : h.objs s = some o) (hd : v d = none ∨ v d = some none) (hn : d ≠ s) :
    MemInv (Function.update (Function.update v s (some none)) d (some x)) (memMove h d s o) := by
  cases x with
  | none =>
    have g := hi.moved s hv
    rw [hs] at g
    injection g with g
    subst g
    have h1 := mem_null hi (s := s) (.inr hv) true
    have h2 := mem_null h1 (s := d) (by simpa [Function.update_apply, hn] using hd) true
    simpa [memMove] using h2
  | some n =>
    obtain ⟨k, g1, g2⟩ := hi.own s n hv
    rw [hs] at g1
    injection g1 with g1
    subst g1
    have h1 := mem_drop hi hv hs
    have h2 := mem_null h1 (s := s) (.inl (by simp)) true
    have h3 := mem_null h2 (s := d) (by simpa [Function.update_apply, hn] using hd) false
    have h4 := mem_add (s := d) (n := n) (k := k) (nx := h.next) h3 (by simp) (by simp) (hi.live k g2).1 (Nat.le_refl _)
    have e : Function.update h.alive k true = h.alive := by rw [← g2]; exact Function.update_eq_self k h.alive
    simp only [Function.update_idem, e] at h4
    simpa [memMove] using h4

theorem mem_step {v v' : Nat → Option (Option Nat)} {h : Heap} {op : MemOp} (hi : MemInv v h) (hc : MemCareful v op)
    (hd : MemDoes v op v') : ∃ h', memStep h op = .ok h' ∧ MemInv v' h' := by
  cases hd with
  | construct s hv =>
    refine ⟨_, by simp [memStep, (hi.gone s).1 hv]; rfl, ?_⟩
    refine mem_add hi hv ?_ (Nat.lt_succ_self _) (Nat.le_succ _)
    cases ha : h.alive h.next with
    | false => rfl
    | true => exact absurd (hi.live _ ha).1 (by omega)
  | allocate s n hv =>
    obtain ⟨k, g1, g2⟩ := hi.own s n hv
    refine ⟨_, by simp [memStep, memAllocate, g1, g2]; rfl, ?_⟩
    have h1 := mem_add (s := s) (n := n + 1) (k := k) (nx := h.next) (mem_drop hi hv g1) (by simp) (by simp) (hi.live k g2).1 (Nat.le_refl _)
    have e : Function.update h.alive k true = h.alive := by rw [← g2]; exact Function.update_eq_self k h.alive
    simpa only [Function.update_idem, e] using h1
  | moveConstruct d s x hv hd =>
    cases hs : h.objs s with
    | none => rw [(hi.gone s).2 hs] at hv; simp at hv
    | some o =>
      exact ⟨_, by simp [memStep, hs, (hi.gone d).1 hd], mem_move hi hv hs (.inl hd) (by rintro rfl; rw [hd] at hv; simp at hv)⟩
  | moveSelf s x hv =>
    cases hs : h.objs s with
    | none => rw [(hi.gone s).2 hs] at hv; simp at hv
    | some o => exact ⟨h, by simp [memStep, memAssign, hs], hi⟩
  | moveAssign d s x y hv hd hn =>
    cases hs : h.objs s with
    | none => rw [(hi.gone s).2 hs] at hv; simp at hv
    | some o =>
      cases y with
      | none =>
        exact ⟨_, by simp [memStep, memAssign, hs, hi.moved d hd, hn, freeContent, freeCounter], mem_move hi hv hs (.inr hd) hn⟩
      | some n =>
        have hz : n = 0 := by simpa [MemCareful, hn, hd] using hc
        subst hz
        obtain ⟨k, g1, g2⟩ := hi.own d 0 hd
        refine ⟨_, by simp [memStep, memAssign, hs, g1, hn, freeContent, freeCounter]; rfl, ?_⟩
        have h1 := mem_drop hi hd g1
        have e : s ≠ d := fun e => hn e.symm
        have h2 := mem_move (d := d) (s := s) (x := x) (o := o) h1 (by simpa [Function.update_apply, e] using hv)
          (by simpa [Function.update_apply, e] using hs) (.inl (by simp)) hn
        have e1 : Function.update (Function.update (Function.update v d none) s (some none)) d (some x) =
            Function.update (Function.update v s (some none)) d (some x) := by
          funext t; simp only [Function.update_apply]; grind
        simp only [e1] at h2
        have e2 : Function.update (Function.update (Function.update h.objs d none) s (some ⟨none, none⟩)) d (some o) =
            Function.update (Function.update h.objs s (some ⟨none, none⟩)) d (some o) := by
          funext t; simp only [Function.update_apply]; grind
        simp only [memMove, e2] at h2 ⊢
        exact h2
  | destruct s x hv =>
    cases x with
    | none =>
      exact ⟨_, by simp [memStep, memDestruct, hi.moved s hv, freeContent, freeCounter], mem_null hi (s := s) (.inr hv) false⟩
    | some n =>
      obtain ⟨k, g1, g2⟩ := hi.own s n hv
      exact ⟨_, by simp [memStep, memDestruct, g1, g2, freeContent, freeCounter], mem_drop hi hv g1⟩

theorem mem_runs {v v' : Nat → Option (Option Nat)} {h : Heap} {ops : List MemOp} (hi : MemInv v h) (hr : MemRuns MemCareful v ops v') :
    ∃ h', memRun h ops = .ok h' ∧ MemInv v' h' := by
  induction hr generalizing h with
  | nil v => exact ⟨h, rfl, hi⟩
  | cons v v₁ v₂ op ops hp hd _ ih =>
    obtain ⟨w₁, h1, h2⟩ := mem_step hi hp hd
    obtain ⟨w₂, h3, h4⟩ := ih h2
    exact ⟨w₂, by simp [memRun, h1, h3], h4⟩

/-- **C100.**  Storages in memory: whatever is done with them, nothing undefined happens; when all have gone, nothing is left.  False
without `MemCareful` (`memory_assign_fails`). -/
theorem memory_partial {ops : List MemOp} {v : Nat → Option (Option Nat)} (hr : MemRuns MemCareful (fun _ => none) ops v) :
    ∃ h, memRun Heap.start ops = .ok h ∧ (∀ s, (h.objs s).isSome = (v s).isSome) ∧
      (∀ s n, v s = some (some n) → ∃ k, h.objs s = some ⟨some k, some (k, n)⟩) ∧
      (∀ k, h.alive k = true ↔ ∃ s c, h.objs s = some ⟨some k, c⟩) ∧ ((∀ s, v s = none) → ∀ k, h.alive k = false) := by
  have h0 : MemInv (fun _ => none) Heap.start := by constructor <;> simp [Heap.start]
  obtain ⟨h, h1, h2⟩ := mem_runs h0 hr
  have ho : ∀ s, (h.objs s).isSome = (v s).isSome := fun s => by
    have := h2.gone s
    cases hv : v s <;> cases hs : h.objs s <;> simp_all
  refine ⟨h, h1, ho, fun s n hv => (h2.own s n hv).imp fun _ g => g.1, fun k => ⟨fun hk => (h2.live k hk).2, ?_⟩, ?_⟩
  · rintro ⟨s, c, hs⟩
    cases hb : v s with
    | none => rw [(h2.gone s).1 hb] at hs; simp at hs
    | some y =>
      cases y with
      | none => rw [h2.moved s hb] at hs; simp at hs
      | some y =>
        obtain ⟨k', g1, g2⟩ := h2.own s y hb
        rw [hs] at g1
        simp only [Option.some.injEq, MemObj.mk.injEq] at g1
        rw [g1.1]; exact g2
  · intro hv k
    cases hk : h.alive k with
    | false => rfl
    | true =>
      obtain ⟨-, s, c, hs⟩ := h2.live k hk
      have := ho s
      rw [hs, hv s] at this
      simp at this

theorem mem_life_runs : ∃ v, MemRuns MemCareful (fun _ => none) [.construct 0, .moveConstruct 1 0, .allocate 1, .construct 2, .moveAssign 2 1,
    .moveAssign 0 2, .allocate 0, .destruct 0, .destruct 1, .destruct 2] v ∧ ∀ s, v s = none := by
  refine ⟨_, .cons _ _ _ _ _ ?_ (.construct _ 0 rfl) (.cons _ _ _ _ _ ?_ (.moveConstruct _ 1 0 _ rfl rfl)
      (.cons _ _ _ _ _ ?_ (.allocate _ 1 _ rfl) (.cons _ _ _ _ _ ?_ (.construct _ 2 rfl)
      (.cons _ _ _ _ _ ?_ (.moveAssign _ 2 1 _ _ rfl rfl (by decide))
      (.cons _ _ _ _ _ ?_ (.moveAssign _ 0 2 _ _ rfl rfl (by decide))
      (.cons _ _ _ _ _ ?_ (.allocate _ 0 _ rfl) (.cons _ _ _ _ _ ?_ (.destruct _ 0 _ rfl)
      (.cons _ _ _ _ _ ?_ (.destruct _ 1 _ rfl) (.cons _ _ _ _ _ ?_ (.destruct _ 2 _ rfl) (.nil _)))))))))), ?_⟩
  case refine_11 => intro s; simp only [Function.update_apply]; grind
  all_goals simp [MemCareful]

example : ∃ h, memRun Heap.start [.construct 0, .moveConstruct 1 0, .allocate 1, .construct 2, .moveAssign 2 1, .moveAssign 0 2, .allocate 0,
    .destruct 0, .destruct 1, .destruct 2] = .ok h ∧ ∀ k, h.alive k = false := by
  obtain ⟨v, h1, h2⟩ := mem_life_runs
  obtain ⟨h, h3, -, -, -, h4⟩ := memory_partial h1
  exact ⟨h, h3, h4 h2⟩

/-- A storage with blocks of memory that is assigned another one: its blocks are counted by a counter that has gone. -/
theorem memory_assign_fails : ¬ ∀ (ops : List MemOp) (v : Nat → Option (Option Nat)), MemRuns (fun _ _ => True) (fun _ => none) ops v →
    ∃ h, memRun Heap.start ops = .ok h := by
  intro h
  obtain ⟨h', h1⟩ := h [.construct 0, .allocate 0, .construct 1, .moveAssign 0 1] _
    (.cons _ _ _ _ _ trivial (.construct _ 0 rfl) (.cons _ _ _ _ _ trivial (.allocate _ 0 _ rfl)
      (.cons _ _ _ _ _ trivial (.construct _ 1 rfl) (.cons _ _ _ _ _ trivial (.moveAssign _ 0 1 _ _ rfl rfl (by decide)) (.nil _)))))
  exact absurd (show (Outcome.ub : Outcome Heap) = .ok h' from h1) (by simp)

end MM.Storage
