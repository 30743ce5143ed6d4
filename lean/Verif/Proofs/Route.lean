import Verif.Model.Route
import Verif.Props.LazyLine
import Mathlib.Algebra.BigOperators.Group.List.Basic

/-!
# Routes: helper lemmas
-/

set_option autoImplicit false
set_option linter.unusedSectionVars false

namespace MM.Route

open MM.Line

variable {P : Type} [DecidableEq P] {R A : Type}

/-! ### Owned lines -/

/-- A route whose references are alive: owned lines are referenced once each and in order, all other references are to lines
that live outside (`ext`); all addresses are in use. -/
structure Good (ext : Ref P → Prop) (next : Nat) (r : Route P) : Prop where
  nodup : (r.own.map Ref.addr).Nodup
  order : r.refs.filter (fun x => decide (x.addr ∈ r.own.map Ref.addr)) = r.own
  alive : ∀ x ∈ r.refs, x ∈ r.own ∨ ext x
  below : ∀ x ∈ r.refs, x.addr < next

structure AccGood (ext : Ref P → Prop) (base : Nat) (acc : Acc P) : Prop where
  le : base ≤ acc.next
  own : acc.own.map Ref.addr = List.range' base (acc.next - base)
  order : acc.refs.filter (fun x => decide (base ≤ x.addr)) = acc.own
  alive : ∀ x ∈ acc.refs, x.addr < base → ext x

theorem AccGood.snoc_new {ext : Ref P → Prop} {base : Nat} {acc : Acc P} (h : AccGood ext base acc) (line : List P) :
    AccGood ext base ⟨acc.own ++ [⟨acc.next, line⟩], acc.refs ++ [⟨acc.next, line⟩], acc.next + 1⟩ := by
  have hle := h.le
  refine ⟨by simp only; omega, ?_, ?_, ?_⟩
  · simp only [List.map_append, List.map_cons, List.map_nil, h.own]
    rw [Nat.sub_add_comm hle, List.range'_concat]
    congr 2
    omega
  · simp only [List.filter_append, h.order]
    rw [List.filter_cons_of_pos (by simpa using hle)]
    rfl
  · intro x hx hlt
    simp only [List.mem_append, List.mem_singleton] at hx
    rcases hx with hx | rfl
    · exact h.alive x hx hlt
    · simp only at hlt; omega

theorem AccGood.snoc_ext {ext : Ref P → Prop} {base : Nat} {acc : Acc P} (h : AccGood ext base acc) {x : Ref P}
    (hx : ext x) (hlt : x.addr < base) : AccGood ext base ⟨acc.own, acc.refs ++ [x], acc.next⟩ := by
  refine ⟨h.le, h.own, ?_, ?_⟩
  · simp only [List.filter_append, h.order]
    rw [List.filter_cons_of_neg (by simpa using hlt)]
    simp
  · intro y hy hlt'
    simp only [List.mem_append, List.mem_singleton] at hy
    rcases hy with hy | rfl
    · exact h.alive y hy hlt'
    · exact hx

theorem moveRefs_spec {ext : Ref P → Prop} {base : Nat} (addrs : List Nat) (refs : List (Ref P)) :
    ∀ (own : List (Ref P)) (acc : Acc P), AccGood ext base acc →
      refs.filter (fun x => decide (x.addr ∈ addrs)) = own →
      (∀ x ∈ refs, x.addr ∉ addrs → ext x) → (∀ x ∈ refs, x.addr < base) →
      AccGood ext base (moveRefs own refs acc) ∧
        (moveRefs own refs acc).refs.map Ref.line = acc.refs.map Ref.line ++ refs.map Ref.line := by
  induction refs with
  | nil => intro own acc h _ _ _; cases own <;> simp [moveRefs, h]
  | cons r rs ih =>
    intro own acc h hf hext hb
    by_cases hr : r.addr ∈ addrs
    · rw [List.filter_cons_of_pos (by simpa using hr)] at hf
      subst hf
      rw [moveRefs, if_pos rfl]
      obtain ⟨h1, h2⟩ := ih _ _ (h.snoc_new r.line) rfl (fun x hx => hext x (List.mem_cons_of_mem _ hx))
        (fun x hx => hb x (List.mem_cons_of_mem _ hx))
      exact ⟨h1, by rw [h2]; simp⟩
    · rw [List.filter_cons_of_neg (by simpa using hr)] at hf
      have hx := h.snoc_ext (hext r List.mem_cons_self hr) (hb r List.mem_cons_self)
      obtain ⟨h1, h2⟩ := ih own _ hx hf (fun x hx => hext x (List.mem_cons_of_mem _ hx))
        (fun x hx => hb x (List.mem_cons_of_mem _ hx))
      have heq : moveRefs own (r :: rs) acc = moveRefs own rs ⟨acc.own, acc.refs ++ [r], acc.next⟩ := by
        cases own with
        | nil => rw [moveRefs]
        | cons o os =>
          rw [moveRefs, if_neg]
          intro he
          have : o ∈ rs.filter (fun x => decide (x.addr ∈ addrs)) := by rw [hf]; exact List.mem_cons_self
          have := of_decide_eq_true (List.mem_filter.1 this).2
          rw [he] at this
          exact hr this
      rw [heq]
      exact ⟨h1, by rw [h2]; simp⟩

theorem found_spec (refs : List (Ref P)) : ∀ own : List (Ref P), (own.map Ref.addr).Sublist (refs.map Ref.addr) →
    found own refs = own.length := by
  induction refs with
  | nil =>
    intro own h
    cases own with
    | nil => rfl
    | cons o os => simp at h
  | cons r rs ih =>
    intro own h
    cases own with
    | nil => rfl
    | cons o os =>
      rw [List.map_cons, List.map_cons, List.cons_sublist_cons'] at h
      rw [found, after]
      by_cases he : o.addr = r.addr
      · rw [if_pos he]
        have h2 : (os.map Ref.addr).Sublist (rs.map Ref.addr) := by
          rcases h with h | h
          · exact (List.sublist_cons_self _ _).trans h
          · exact h.2
        simp [ih os h2]
      · rw [if_neg he]
        have h2 : ((o :: os).map Ref.addr).Sublist (rs.map Ref.addr) := by
          rcases h with h | h
          · exact h
          · exact absurd h.1 he
        have := ih (o :: os) h2
        rw [found] at this
        exact this

theorem build_spec {ext : Ref P → Prop} {base : Nat} {acc : Acc P} (h : AccGood ext base acc) :
    build acc.own acc.refs = .ok ⟨acc.own, acc.refs, false⟩ ∧ Good ext acc.next ⟨acc.own, acc.refs, false⟩ := by
  have hsub : acc.own.Sublist acc.refs := by
    conv_lhs => rw [← h.order]
    exact List.filter_sublist
  have hmem : ∀ x ∈ acc.refs, (x.addr ∈ acc.own.map Ref.addr ↔ base ≤ x.addr) := by
    intro x hx
    constructor
    · intro hm
      rw [h.own] at hm
      exact (List.mem_range'_1.1 hm).1
    · intro hb
      have : x ∈ acc.own := by
        rw [← h.order]
        exact List.mem_filter.2 ⟨hx, by simpa using hb⟩
      exact List.mem_map_of_mem this
  refine ⟨?_, ?_, ?_, ?_, ?_⟩
  · rw [build, if_pos (found_spec _ _ (hsub.map _))]
  · rw [h.own]
    exact List.nodup_range'
  · simp only
    rw [← h.order]
    apply List.filter_congr
    intro x hx
    rw [h.order]
    simp only [hmem x hx]
  · intro x hx
    by_cases hb : base ≤ x.addr
    · left
      rw [← h.order]
      exact List.mem_filter.2 ⟨hx, by simpa using hb⟩
    · right
      exact h.alive x hx (by omega)
  · intro x hx
    by_cases hb : base ≤ x.addr
    · have := (hmem x hx).2 hb
      rw [h.own] at this
      have := (List.mem_range'_1.1 this).2
      have := h.le
      omega
    · have := h.le
      omega

/-! ### Lines of a merged route -/

/-- The gap between two sequences of lines: from the last point of the last line to the first point of the first line. -/
def gapBetween (a b : List (List P)) : Option (P × P) :=
  match a.getLast?.bind List.getLast?, b.head?.bind List.head? with
  | some p, some q => if p = q then none else some (p, q)
  | _, _ => none

def gapLines (connect : Bool) (a b : List (List P)) : List (List P) :=
  match connect, gapBetween a b with
  | true, some (p, q) => [[p, q]]
  | _, _ => []

/-- The sequences one after the other, with a line over every gap if wanted. -/
def welded (connect : Bool) : List (List P) → List (List (List P)) → List (List P)
  | acc, [] => acc
  | acc, ls :: rest => welded connect (acc ++ gapLines connect acc ls ++ ls) rest

/-- There is a gap between two of the sequences. -/
def hasGap : List (List P) → List (List (List P)) → Prop
  | _, [] => False
  | acc, ls :: rest => (gapBetween acc ls).isSome ∨ hasGap (acc ++ ls) rest

theorem gapOf_eq (a : List (Ref P)) (r : Route P) :
    gapOf a.getLast? r.refs.head? = gapBetween (a.map Ref.line) r.lines := by
  unfold gapOf gapBetween Route.lines
  rw [List.getLast?_map, List.head?_map]
  cases a.getLast? <;> cases r.refs.head? <;> rfl

theorem bridge_spec {ext : Ref P → Prop} {base : Nat} {acc acc' : Acc P} (h : AccGood ext base acc) (connect except : Bool)
    (r : Route P) (hb : bridge connect except acc r = .ok acc') :
    AccGood ext base acc' ∧ acc'.refs.map Ref.line = acc.refs.map Ref.line ++ gapLines connect (acc.refs.map Ref.line) r.lines := by
  unfold bridge at hb
  rw [gapOf_eq] at hb
  unfold gapLines
  cases hg : gapBetween (acc.refs.map Ref.line) r.lines with
  | none =>
    rw [hg] at hb
    simp only [Outcome.ok.injEq] at hb
    subst hb
    cases connect <;> simp [h]
  | some pq =>
    obtain ⟨p, q⟩ := pq
    rw [hg] at hb
    simp only at hb
    cases connect with
    | true =>
      simp only [if_true, Outcome.ok.injEq] at hb
      subst hb
      exact ⟨h.snoc_new _, by simp⟩
    | false =>
      cases except with
      | true => simp at hb
      | false =>
        simp at hb
        subst hb
        exact ⟨h, by simp⟩

def usable (rs : List (Route P)) : List (List (List P)) := (rs.filter Route.mergeable).map Route.lines

theorem Good.split {ext : Ref P → Prop} {next : Nat} {r : Route P} (h : Good ext next r) :
    ∀ x ∈ r.refs, x.addr ∉ r.own.map Ref.addr → ext x := by
  intro x hx hn
  rcases h.alive x hx with h1 | h1
  · exact absurd (List.mem_map_of_mem h1) hn
  · exact h1

theorem mergeLoop_spec {ext : Ref P → Prop} {base : Nat} (connect except : Bool) (rs : List (Route P)) :
    ∀ acc : Acc P, AccGood ext base acc → (∀ r ∈ rs, Good ext base r) →
      (∀ acc', mergeLoop connect except rs acc = .ok acc' →
        AccGood ext base acc' ∧ acc'.refs.map Ref.line = welded connect (acc.refs.map Ref.line) (usable rs)) ∧
      mergeLoop connect except rs acc ≠ .ub ∧
      (connect = true ∨ except = false → mergeLoop connect except rs acc ≠ .throws) ∧
      (connect = false → except = true →
        (mergeLoop connect except rs acc = .throws ↔ hasGap (acc.refs.map Ref.line) (usable rs))) := by
  induction rs with
  | nil => intro acc h _; simp [mergeLoop, usable, welded, h, hasGap]
  | cons r rs ih =>
    intro acc h hg
    have hrs : ∀ r ∈ rs, Good ext base r := fun x hx => hg x (List.mem_cons_of_mem _ hx)
    by_cases hm : r.mergeable = true
    · have hu : usable (r :: rs) = r.lines :: usable rs := by
        unfold usable
        rw [List.filter_cons_of_pos hm]
        rfl
      have heq : mergeLoop connect except (r :: rs) acc =
          (bridge connect except acc r).bind fun acc' => mergeLoop connect except rs (moveRefs r.own r.refs acc') := by
        rw [mergeLoop, if_pos hm]
      rw [heq, hu]
      have hgr := hg r List.mem_cons_self
      cases hb : bridge connect except acc r with
      | ok acc1 =>
        obtain ⟨h1, h2⟩ := bridge_spec h connect except r hb
        obtain ⟨h3, h4⟩ := moveRefs_spec (r.own.map Ref.addr) r.refs r.own acc1 h1 hgr.order hgr.split hgr.below
        obtain ⟨i1, i2, i3, i4⟩ := ih _ h3 hrs
        have hlines : (moveRefs r.own r.refs acc1).refs.map Ref.line =
            acc.refs.map Ref.line ++ gapLines connect (acc.refs.map Ref.line) r.lines ++ r.lines := by
          rw [h4, h2]
          rfl
        rw [hlines] at i1 i4
        simp only [Outcome.bind_ok]
        refine ⟨i1, i2, i3, ?_⟩
        intro hc he
        rw [i4 hc he, hasGap]
        subst hc he
        have hno : gapBetween (acc.refs.map Ref.line) r.lines = none := by
          unfold bridge at hb
          rw [gapOf_eq] at hb
          cases hgap : gapBetween (acc.refs.map Ref.line) r.lines with
          | none => rfl
          | some pq => rw [hgap] at hb; simp at hb
        simp [gapLines, hno]
      | throws =>
        have hcase : connect = false ∧ except = true ∧ (gapBetween (acc.refs.map Ref.line) r.lines).isSome := by
          unfold bridge at hb
          rw [gapOf_eq] at hb
          cases hgap : gapBetween (acc.refs.map Ref.line) r.lines with
          | none => rw [hgap] at hb; simp at hb
          | some pq =>
            rw [hgap] at hb
            cases connect <;> cases except <;> simp_all
        refine ⟨by simp, by simp, ?_, ?_⟩
        · rintro (hc | hc)
          · rw [hcase.1] at hc; simp at hc
          · rw [hcase.2.1] at hc; simp at hc
        · intro _ _
          simp only [Outcome.bind_throws, true_iff]
          exact .inl hcase.2.2
      | ub =>
        exfalso
        unfold bridge at hb
        split at hb
        · simp at hb
        · split_ifs at hb
    · have hu : usable (r :: rs) = usable rs := by
        unfold usable
        rw [List.filter_cons_of_neg hm]
      have heq : mergeLoop connect except (r :: rs) acc = mergeLoop connect except rs acc := by
        rw [mergeLoop, if_neg hm]
      rw [heq, hu]
      exact ih acc h hrs

theorem accGood_nil (ext : Ref P → Prop) (base : Nat) : AccGood ext base ⟨[], [], base⟩ :=
  ⟨Nat.le_refl _, by simp, rfl, by simp⟩

theorem welded_false (acc : List (List P)) (lss : List (List (List P))) : welded false acc lss = acc ++ lss.flatten := by
  induction lss generalizing acc with
  | nil => simp [welded]
  | cons ls rest ih => rw [welded, ih]; simp [gapLines]

/-! ### Constant lines -/

/-- `b` is `a` without some lines that stay at one point. -/
inductive Drop : List (List P) → List (List P) → Prop where
  | nil : Drop [] []
  | keep (l : List P) {a b : List (List P)} : Drop a b → Drop (l :: a) (l :: b)
  | drop (l : List P) {a b : List (List P)} (h : ∀ s ∈ segs l, s.1 = s.2) : Drop a b → Drop (l :: a) b

theorem Drop.refl (a : List (List P)) : Drop a a := by
  induction a with
  | nil => exact .nil
  | cons l a ih => exact .keep l ih

theorem Drop.append {a b c d : List (List P)} (h1 : Drop a b) (h2 : Drop c d) : Drop (a ++ c) (b ++ d) := by
  induction h1 with
  | nil => exact h2
  | keep l _ ih => exact .keep l ih
  | drop l h _ ih => exact .drop l h ih

theorem drop_all (a : List (List P)) (h : ∀ l ∈ a, ∀ s ∈ segs l, s.1 = s.2) : Drop a [] := by
  induction a with
  | nil => exact .nil
  | cons l a ih => exact .drop l (h l List.mem_cons_self) (ih (fun x hx => h x (List.mem_cons_of_mem _ hx)))

theorem not_mergeable {r : Route P} (hi : r.invalid = false) (hm : ¬ r.mergeable = true) :
    ∀ l ∈ r.lines, ∀ s ∈ segs l, s.1 = s.2 := by
  intro l hl s hs
  by_contra hne
  apply hm
  unfold Route.mergeable
  have h1 : r.refs.isEmpty = false := by
    cases hr : r.refs with
    | nil => simp [Route.lines, hr] at hl
    | cons x xs => rfl
  rw [hi, h1]
  simp only [Bool.or_self, Bool.false_eq_true, if_false]
  rw [if_neg]
  · exact List.any_eq_true.2 ⟨l, hl, List.any_eq_true.2 ⟨s, hs, by simpa using hne⟩⟩
  · intro hall
    have := List.all_eq_true.1 hall l hl
    have hlt := of_decide_eq_true this
    have : (segs l).length = l.length - 1 := segs_length l
    have hpos : 0 < (segs l).length := List.length_pos_of_mem hs
    omega

theorem drop_usable (rs : List (Route P)) (h : ∀ r ∈ rs, r.invalid = false) :
    Drop (rs.flatMap Route.lines) (usable rs).flatten := by
  induction rs with
  | nil => exact .nil
  | cons r rs ih =>
    have ih' := ih (fun x hx => h x (List.mem_cons_of_mem _ hx))
    rw [List.flatMap_cons]
    by_cases hm : r.mergeable = true
    · have hu : usable (r :: rs) = r.lines :: usable rs := by
        unfold usable
        rw [List.filter_cons_of_pos hm]
        rfl
      rw [hu, List.flatten_cons]
      exact (Drop.refl _).append ih'
    · have hu : usable (r :: rs) = usable rs := by
        unfold usable
        rw [List.filter_cons_of_neg hm]
      rw [hu]
      exact (drop_all _ (not_mergeable (h r List.mem_cons_self) hm)).append ih'

/-- All points of a constant line are the same. -/
theorem constant_line (l : List P) : ∀ p : P, (∀ s ∈ segs (p :: l), s.1 = s.2) → l = List.replicate l.length p := by
  induction l with
  | nil => intro p _; rfl
  | cons a l ih =>
    intro p h
    have hpa : p = a := h (p, a) (by simp [segs])
    subst hpa
    have := ih p (fun s hs => h s (by
      have : segs (p :: p :: l) = (p, p) :: segs (p :: l) := by simp [segs]
      rw [this]
      exact List.mem_cons_of_mem _ hs))
    rw [List.length_cons, List.replicate_succ, ← this]

theorem constant_ends {l : List P} (h : ∀ s ∈ segs l, s.1 = s.2) : l.getLast? = l.head? := by
  cases l with
  | nil => rfl
  | cons p l =>
    have := constant_line l p h
    have h2 : p :: l = List.replicate (l.length + 1) p := by rw [List.replicate_succ, ← this]
    rw [h2, List.getLast?_replicate, List.head?_replicate]

theorem nonempty_cons (l : List P) (ls : List (List P)) :
    nonempty (l :: ls) = if l = [] then nonempty ls else l :: nonempty ls := by
  unfold nonempty
  by_cases h : l = []
  · simp [h]
  · simp [h]

/-- Dropping constant lines keeps a chain, also with a line in front. -/
theorem drop_chain {a b : List (List P)} (h : Drop a b) :
    ∀ x : List P, x ≠ [] → ((x :: nonempty a).IsChain Meets → (x :: nonempty b).IsChain Meets) := by
  induction h with
  | nil => intro x _ h; exact h
  | @keep l a b _ ih =>
    intro x hx hc
    rw [nonempty_cons] at hc ⊢
    split_ifs at hc ⊢ with hl
    · exact ih x hx hc
    · rw [List.isChain_cons_cons] at hc ⊢
      exact ⟨hc.1, ih l hl hc.2⟩
  | @drop l a b hl _ ih =>
    intro x hx hc
    rw [nonempty_cons] at hc
    split_ifs at hc with he
    · exact ih x hx hc
    · rw [List.isChain_cons_cons] at hc
      refine ih x hx ?_
      cases hn : nonempty a with
      | nil => exact List.isChain_singleton _
      | cons y ys =>
        rw [hn, List.isChain_cons_cons] at hc
        rw [List.isChain_cons_cons]
        refine ⟨?_, hc.2.2⟩
        have h1 : x.getLast? = l.head? := hc.1
        have h2 : l.getLast? = y.head? := hc.2.1
        rw [Meets, h1, ← constant_ends hl, h2]

theorem drop_chain' {a b : List (List P)} (h : Drop a b) (hc : (nonempty a).IsChain Meets) : (nonempty b).IsChain Meets := by
  induction h with
  | nil => exact hc
  | @keep l a b hd ih =>
    rw [nonempty_cons] at hc ⊢
    split_ifs at hc ⊢ with hl
    · exact ih hc
    · exact drop_chain hd l hl hc
  | @drop l a b hl _ ih =>
    rw [nonempty_cons] at hc
    split_ifs at hc with he
    · exact ih hc
    · exact ih hc.tail

/-! ### Repeated points -/

/-- Without points that repeat their predecessor. -/
def squash : List P → List P
  | a :: b :: rest => if a = b then squash (b :: rest) else a :: squash (b :: rest)
  | l => l

theorem squash_cons2 (a b : P) (rest : List P) :
    squash (a :: b :: rest) = if a = b then squash (b :: rest) else a :: squash (b :: rest) := rfl

theorem squash_dup (xs : List P) (p : P) (ys : List P) : squash (xs ++ p :: p :: ys) = squash (xs ++ p :: ys) := by
  induction xs with
  | nil => rw [List.nil_append, squash, if_pos rfl]; rfl
  | cons x xs ih =>
    cases xs with
    | nil =>
      simp only [List.cons_append, List.nil_append] at ih ⊢
      rw [squash_cons2 x p, squash_cons2 x p, ih]
    | cons z xs =>
      simp only [List.cons_append] at ih ⊢
      rw [squash_cons2 x z, squash_cons2 x z, ih]

theorem squash_replicate (xs : List P) (p : P) (ys : List P) (n : Nat) :
    squash (xs ++ p :: (List.replicate n p ++ ys)) = squash (xs ++ p :: ys) := by
  induction n with
  | zero => rfl
  | succ n ih => rw [List.replicate_succ, List.cons_append, squash_dup, ih]

/-- Concatenation of the tails of constant and other lines. -/
theorem drop_squash_tail {a b : List (List P)} (h : Drop a b) : ∀ (pre : List P) (x : List P), x ≠ [] →
    (x :: nonempty a).IsChain Meets →
    squash (pre ++ x ++ (nonempty a).flatMap List.tail) = squash (pre ++ x ++ (nonempty b).flatMap List.tail) := by
  induction h with
  | nil => intro pre x _ _; rfl
  | @keep l a b hd ih =>
    intro pre x hx hc
    rw [nonempty_cons] at hc
    rw [nonempty_cons, nonempty_cons]
    split_ifs at hc ⊢ with hl
    · exact ih pre x hx hc
    · rw [List.isChain_cons_cons] at hc
      obtain ⟨q, rest, rfl⟩ := List.exists_cons_of_ne_nil hl
      obtain ⟨x0, hx0⟩ : ∃ x0, x = x0 ++ [q] := List.getLast?_eq_some_iff.1 hc.1
      have := ih (pre ++ x0) (q :: rest) hl hc.2
      rw [List.flatMap_cons, List.flatMap_cons, hx0]
      simpa using this
  | @drop l a b hl _ ih =>
    intro pre x hx hc
    rw [nonempty_cons] at hc
    rw [nonempty_cons]
    split_ifs at hc ⊢ with he
    · exact ih pre x hx hc
    · have hchain : (x :: nonempty a).IsChain Meets := by
        rw [List.isChain_cons_cons] at hc
        cases hn : nonempty a with
        | nil => exact List.isChain_singleton _
        | cons y ys =>
          rw [hn, List.isChain_cons_cons] at hc
          rw [List.isChain_cons_cons]
          have h1 : x.getLast? = l.head? := hc.1
          have h2 : l.getLast? = y.head? := hc.2.1
          exact ⟨by rw [Meets, h1, ← constant_ends hl, h2], hc.2.2⟩
      rw [← ih pre x hx hchain]
      rw [List.isChain_cons_cons] at hc
      obtain ⟨q, rest, rfl⟩ := List.exists_cons_of_ne_nil he
      obtain ⟨x0, hx0⟩ : ∃ x0, x = x0 ++ [q] := List.getLast?_eq_some_iff.1 hc.1
      have hrep := constant_line rest q hl
      rw [List.flatMap_cons, hx0, List.tail_cons, hrep]
      have := squash_replicate (pre ++ x0) q ((nonempty a).flatMap List.tail) rest.length
      simpa using this

theorem drop_squash {a b : List (List P)} (h : Drop a b) (hc : (nonempty a).IsChain Meets) (hb : nonempty b ≠ []) :
    squash (joined (nonempty a)) = squash (joined (nonempty b)) := by
  induction h with
  | nil => rfl
  | @keep l a b hd ih =>
    rw [nonempty_cons] at hc hb
    rw [nonempty_cons, nonempty_cons]
    split_ifs at hc hb ⊢ with hl
    · exact ih hc hb
    · have := drop_squash_tail hd [] l hl hc
      simpa [joined] using this
  | @drop l a b hl hd ih =>
    rw [nonempty_cons] at hc
    rw [nonempty_cons]
    split_ifs at hc ⊢ with he
    · exact ih hc hb
    · rw [← ih hc.tail hb]
      cases hn : nonempty a with
      | nil =>
        exfalso
        have : ∀ {a b : List (List P)}, Drop a b → nonempty a = [] → nonempty b = [] := by
          intro a b h
          induction h with
          | nil => intro h; exact h
          | keep l _ ih =>
            intro h
            rw [nonempty_cons] at h ⊢
            split_ifs at h ⊢ with hl
            exact ih h
          | drop l _ _ ih =>
            intro h
            rw [nonempty_cons] at h
            split_ifs at h with hl
            exact ih h
        exact hb (this hd hn)
      | cons y ys =>
        rw [hn, List.isChain_cons_cons] at hc
        obtain ⟨q, rest, rfl⟩ := List.exists_cons_of_ne_nil he
        have hrep := constant_line rest q hl
        have hy : y.head? = some q := by
          have h2 : (q :: rest).getLast? = y.head? := hc.1
          rw [← h2, constant_ends hl]
          rfl
        obtain ⟨y', rfl⟩ : ∃ y', y = q :: y' := by
          cases y with
          | nil => simp at hy
          | cons z zs => simp at hy; exact ⟨zs, by rw [hy]⟩
        have := squash_replicate [] q (y' ++ ys.flatMap List.tail) rest.length
        simp only [joined, List.flatMap_cons, List.tail_cons]
        rw [hrep]
        simpa using this

/-! ### Lengths -/

/-- Sum of the lengths of all segments with different ends. -/
def segmentSum [AddCommMonoid R] (len : P → P → R) (ls : List (List P)) : R :=
  (((ls.flatMap segs).filter (fun s => decide (s.1 ≠ s.2))).map (fun s => len s.1 s.2)).sum

/-- A geometry whose lengths are added by `+`. -/
def Adds [AddCommMonoid R] (G : Geo P R A) : Prop := G.zeroR = 0 ∧ G.addR = (· + ·)

theorem foldl_add [AddCommMonoid R] (l : List R) : ∀ a : R, l.foldl (· + ·) a = a + l.sum := by
  induction l with
  | nil => intro a; simp
  | cons x l ih => intro a; rw [List.foldl_cons, ih, List.sum_cons, add_assoc]

theorem plainLength_sum [AddCommMonoid R] {G : Geo P R A} (hG : Adds G) (l : List P) :
    (plainLength G l).getD 0 = segmentSum G.len [l] := by
  unfold plainLength segmentSum
  rw [List.flatMap_cons, List.flatMap_nil, List.append_nil]
  generalize (segs l).filter _ = ss
  split_ifs with h
  · rw [List.isEmpty_iff.1 h]; simp
  · rw [Option.getD_some]
    have : ss.foldl (fun acc s => G.addR acc (G.len s.1 s.2)) G.zeroR = (ss.map (fun s => G.len s.1 s.2)).foldl (· + ·) 0 := by
      rw [List.foldl_map, hG.1, hG.2]
    rw [this, foldl_add, zero_add]

theorem segmentSum_append [AddCommMonoid R] (len : P → P → R) (a b : List (List P)) :
    segmentSum len (a ++ b) = segmentSum len a + segmentSum len b := by
  unfold segmentSum
  rw [List.flatMap_append, List.filter_append, List.map_append, List.sum_append]

theorem filterMap_sum [AddCommMonoid R] {G : Geo P R A} (hG : Adds G) (ls : List (List P)) :
    (ls.filterMap (plainLength G)).sum = segmentSum G.len ls := by
  induction ls with
  | nil => rfl
  | cons l ls ih =>
    have h1 : segmentSum G.len (l :: ls) = segmentSum G.len [l] + segmentSum G.len ls := segmentSum_append G.len [l] ls
    rw [h1, ← plainLength_sum hG, ← ih, List.filterMap_cons]
    cases plainLength G l with
    | none => simp
    | some x => simp

theorem routeLength_many (G : Geo P R A) (l m : List P) (ls : List (List P)) : routeLength G (l :: m :: ls) =
    if ((l :: m :: ls).filterMap (plainLength G)).isEmpty then none
    else some (((l :: m :: ls).filterMap (plainLength G)).foldl G.addR G.zeroR) := rfl

theorem routeLength_sum [AddCommMonoid R] {G : Geo P R A} (hG : Adds G) (ls : List (List P)) :
    (routeLength G ls).getD 0 = segmentSum G.len ls := by
  match ls with
  | [] => rfl
  | [l] => exact plainLength_sum hG l
  | l :: m :: ls =>
    rw [routeLength_many]
    split_ifs with h
    · have := filterMap_sum hG (l :: m :: ls)
      rw [List.isEmpty_iff.1 h] at this
      rw [← this]
      rfl
    · rw [Option.getD_some, hG.1, hG.2, foldl_add, zero_add, filterMap_sum hG]

theorem routeLength_isSome (G : Geo P R A) (ls : List (List P)) :
    (routeLength G ls).isSome ↔ ∃ l ∈ ls, ∃ s ∈ segs l, s.1 ≠ s.2 := by
  have hplain : ∀ l : List P, (plainLength G l).isSome ↔ ∃ s ∈ segs l, s.1 ≠ s.2 := by
    intro l
    unfold plainLength
    split_ifs with h
    · have h' := List.isEmpty_iff.1 h
      rw [List.filter_eq_nil_iff] at h'
      constructor
      · intro hh; simp at hh
      · rintro ⟨s, hs, hne⟩
        exact absurd (by simpa using hne) (h' s hs)
    · simp only [Option.isSome_some, true_iff]
      by_contra hh
      apply h
      rw [List.isEmpty_iff, List.filter_eq_nil_iff]
      intro s hs hd
      exact hh ⟨s, hs, of_decide_eq_true hd⟩
  match ls with
  | [] => simp [routeLength]
  | [l] => simp [routeLength, hplain]
  | l :: m :: ls =>
    have heq : (routeLength G (l :: m :: ls)).isSome ↔ (l :: m :: ls).filterMap (plainLength G) ≠ [] := by
      rw [routeLength_many]
      split_ifs with h
      · simp [List.isEmpty_iff.1 h]
      · simpa using h
    rw [heq, Ne, List.filterMap_eq_nil_iff]
    constructor
    · intro h
      by_contra hh
      apply h
      intro x hx
      cases hp : plainLength G x with
      | none => rfl
      | some y => exact absurd ⟨x, hx, (hplain x).1 (by rw [hp]; rfl)⟩ hh
    · rintro ⟨x, hx, hs⟩ h
      have := (hplain x).2 hs
      rw [h x hx] at this
      simp at this

theorem drop_segmentSum [AddCommMonoid R] (len : P → P → R) {a b : List (List P)} (h : Drop a b) :
    segmentSum len a = segmentSum len b := by
  induction h with
  | nil => rfl
  | @keep l a b _ ih =>
    rw [show l :: a = [l] ++ a from rfl, show l :: b = [l] ++ b from rfl, segmentSum_append, segmentSum_append, ih]
  | @drop l a b hl _ ih =>
    rw [show l :: a = [l] ++ a from rfl, segmentSum_append, ih]
    have : segmentSum len [l] = 0 := by
      unfold segmentSum
      have : ([l].flatMap segs).filter (fun s => decide (s.1 ≠ s.2)) = [] := by
        rw [List.filter_eq_nil_iff]
        intro s hs
        simp only [List.flatMap_cons, List.flatMap_nil, List.append_nil] at hs
        simp [hl s hs]
      rw [this]
      rfl
    rw [this, zero_add]

end MM.Route
