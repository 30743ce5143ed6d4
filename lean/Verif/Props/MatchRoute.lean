import Verif.Model.MatchRoute
import Verif.Props.CandidateRoute
import Mathlib.Algebra.Group.PUnit

/-!
# C82: the match is one line along the routes between the chosen candidates
-/

set_option autoImplicit false
set_option linter.unusedSectionVars false

namespace MM.MatchRoute

open MM.Route MM.Line MM.Router

variable {P : Type} [DecidableEq P] {R A : Type} [LinearOrder R]

/-! ### Joining leaves references alive -/

theorem own_of_init {ext : Ref P → Prop} {n : Nat} {r : Route P} (h : Good ext n r) {init : List (Ref P)} {ref : Ref P}
    (hr : r.refs = init ++ [ref]) :
    (if (r.own.getLast?.map Ref.addr) = some ref.addr then r.own.dropLast else r.own) =
      init.filter (fun x => decide (x.addr ∈ r.own.map Ref.addr)) := by
  have ho := h.order
  rw [hr, List.filter_append] at ho
  by_cases hm : ref.addr ∈ r.own.map Ref.addr
  · have h1 : [ref].filter (fun x => decide (x.addr ∈ r.own.map Ref.addr)) = [ref] := by
      rw [List.filter_cons_of_pos (by simpa using hm)]; rfl
    rw [h1] at ho
    generalize init.filter (fun x => decide (x.addr ∈ r.own.map Ref.addr)) = z at ho ⊢
    rw [← ho, List.getLast?_append]
    simp
  · have h1 : [ref].filter (fun x => decide (x.addr ∈ r.own.map Ref.addr)) = [] := by
      rw [List.filter_cons_of_neg (by simpa using hm)]; rfl
    rw [h1, List.append_nil] at ho
    rw [ho, if_neg]
    intro hc
    apply hm
    obtain ⟨x, hx, hx2⟩ := Option.map_eq_some_iff.1 hc
    rw [← hx2]
    exact List.mem_map_of_mem (List.mem_of_mem_getLast? hx)

theorem own_of_tail {ext : Ref P → Prop} {n : Nat} {r : Route P} (h : Good ext n r) {rest : List (Ref P)} {ref : Ref P}
    (hr : r.refs = ref :: rest) :
    (if (r.own.head?.map Ref.addr) = some ref.addr then r.own.tail else r.own) =
      rest.filter (fun x => decide (x.addr ∈ r.own.map Ref.addr)) := by
  have ho := h.order
  rw [hr] at ho
  by_cases hm : ref.addr ∈ r.own.map Ref.addr
  · rw [List.filter_cons_of_pos (by simpa using hm)] at ho
    generalize rest.filter (fun x => decide (x.addr ∈ r.own.map Ref.addr)) = z at ho ⊢
    rw [← ho]
    simp
  · rw [List.filter_cons_of_neg (by simpa using hm)] at ho
    rw [ho, if_neg]
    intro hc
    apply hm
    obtain ⟨x, hx, hx2⟩ := Option.map_eq_some_iff.1 hc
    rw [← hx2]
    exact List.mem_map_of_mem (List.mem_of_mem_head? hx)

theorem good_part {ext : Ref P → Prop} {n : Nat} {r : Route P} (h : Good ext n r) {part : List (Ref P)}
    (hs : part.Sublist r.refs) :
    Good ext n ⟨part.filter (fun x => decide (x.addr ∈ r.own.map Ref.addr)), part, r.invalid⟩ := by
  have hsub : (part.filter (fun x => decide (x.addr ∈ r.own.map Ref.addr))).Sublist r.own := by
    rw [← h.order]
    have := hs.filter (fun x => decide (x.addr ∈ r.own.map Ref.addr))
    rwa [h.order] at this ⊢
  refine ⟨h.nodup.sublist (hsub.map _), ?_, ?_, fun x hx => h.below x (hs.subset hx)⟩
  · apply List.filter_congr
    intro x hx
    rw [decide_eq_decide]
    constructor
    · intro hh
      obtain ⟨y, hy, hy2⟩ := List.mem_map.1 hh
      rw [← hy2]
      exact List.mem_map_of_mem (hsub.subset hy)
    · intro hh
      exact List.mem_map_of_mem (List.mem_filter.2 ⟨hx, by simpa using hh⟩)
  · intro x hx
    rcases h.alive x (hs.subset hx) with h1 | h1
    · exact .inl (List.mem_filter.2 ⟨hx, by simpa using ⟨x, h1, rfl⟩⟩)
    · exact .inr h1

theorem good_snoc {ext : Ref P → Prop} {n : Nat} {r : Route P} (h : Good ext n r) (line : List P) :
    Good ext (n + 1) ⟨r.own ++ [⟨n, line⟩], r.refs ++ [⟨n, line⟩], r.invalid⟩ := by
  have hlt : ∀ x ∈ r.own, x.addr < n := by
    intro x hx
    rw [← h.order] at hx
    exact h.below x (List.mem_filter.1 hx).1
  refine ⟨?_, ?_, ?_, ?_⟩
  · rw [List.map_append, List.nodup_append]
    refine ⟨h.nodup, by simp, ?_⟩
    intro a ha b hb
    obtain ⟨x, hx, rfl⟩ := List.mem_map.1 ha
    simp only [List.map_cons, List.map_nil, List.mem_singleton] at hb
    have := hlt x hx
    omega
  · simp only [List.filter_append]
    congr 1
    · conv_rhs => rw [← h.order]
      apply List.filter_congr
      intro x hx
      have := h.below x hx
      rw [decide_eq_decide, List.map_append, List.mem_append]
      constructor
      · rintro (h1 | h1)
        · exact h1
        · simp at h1; omega
      · exact .inl
    · rw [List.filter_cons_of_pos (by simp)]; rfl
  · intro x hx
    rcases List.mem_append.1 hx with h1 | h1
    · exact (h.alive x h1).imp_left (fun h2 => List.mem_append_left _ h2)
    · exact .inl (List.mem_append_right _ h1)
  · intro x hx
    rcases List.mem_append.1 hx with h1 | h1
    · exact Nat.lt_succ_of_lt (h.below x h1)
    · simp only [List.mem_singleton] at h1
      subst h1
      exact Nat.lt_succ_self _

theorem good_cons {ext : Ref P → Prop} {n : Nat} {r : Route P} (h : Good ext n r) (line : List P) :
    Good ext (n + 1) ⟨⟨n, line⟩ :: r.own, ⟨n, line⟩ :: r.refs, r.invalid⟩ := by
  have hlt : ∀ x ∈ r.own, x.addr < n := by
    intro x hx
    rw [← h.order] at hx
    exact h.below x (List.mem_filter.1 hx).1
  refine ⟨?_, ?_, ?_, ?_⟩
  · rw [List.map_cons, List.nodup_cons]
    refine ⟨?_, h.nodup⟩
    intro ha
    obtain ⟨x, hx, hx2⟩ := List.mem_map.1 ha
    have := hlt x hx
    simp only at hx2
    omega
  · rw [List.filter_cons_of_pos (by simp)]
    congr 1
    conv_rhs => rw [← h.order]
    apply List.filter_congr
    intro x hx
    have := h.below x hx
    rw [decide_eq_decide, List.map_cons, List.mem_cons]
    constructor
    · rintro (h1 | h1)
      · simp only at h1; omega
      · exact h1
    · exact .inr
  · intro x hx
    rcases List.mem_cons.1 hx with h1 | h1
    · exact .inl (h1 ▸ List.mem_cons_self)
    · exact (h.alive x h1).imp_left (fun h2 => List.mem_cons_of_mem _ h2)
  · intro x hx
    rcases List.mem_cons.1 hx with h1 | h1
    · subst h1
      exact Nat.lt_succ_self _
    · exact Nat.lt_succ_of_lt (h.below x h1)

theorem Good.mono {ext : Ref P → Prop} {n m : Nat} {r : Route P} (h : Good ext n r) (hm : n ≤ m) : Good ext m r :=
  ⟨h.nodup, h.order, h.alive, fun x hx => (h.below x hx).trans_le hm⟩

theorem good_replaceLast {ext : Ref P → Prop} {n : Nat} {r : Route P} (h : Good ext n r) {ref : Ref P}
    (hr : r.refs.getLast? = some ref) (line : List P) : ∃ k, Good ext k (replaceLast r ref line n) := by
  obtain ⟨init, hi⟩ := List.getLast?_eq_some_iff.1 hr
  have ho := own_of_init h hi
  have hp := good_part h (part := init) (by rw [hi]; exact List.sublist_append_left _ _)
  have hd : r.refs.dropLast = init := by rw [hi, List.dropLast_concat]
  unfold replaceLast
  simp only [ho, hd]
  split_ifs
  · exact ⟨n, hp⟩
  · exact ⟨n + 1, good_snoc hp line⟩

theorem good_replaceFirst {ext : Ref P → Prop} {n : Nat} {r : Route P} (h : Good ext n r) {ref : Ref P}
    (hr : r.refs.head? = some ref) (line : List P) : ∃ k, Good ext k (replaceFirst r ref line n) := by
  obtain ⟨rest, hi⟩ : ∃ rest, r.refs = ref :: rest := ⟨_, List.eq_cons_of_mem_head? hr⟩
  have ho := own_of_tail h hi
  have hp := good_part h (part := rest) (by rw [hi]; exact List.sublist_cons_self _ _)
  have hd : r.refs.tail = rest := by rw [hi]; rfl
  unfold replaceFirst
  simp only [ho, hd]
  split_ifs
  · exact ⟨n, hp⟩
  · exact ⟨n + 1, good_cons hp line⟩

theorem join_good {ext : Ref P → Prop} (G : Geo P R A) (turn : A → Bool) (retain : Bool) {n : Nat} {a b : Route P}
    (ha : Good ext n a) (hb : Good ext n b) :
    (∃ k, Good ext k (join G turn retain n a b).1) ∧ ∃ k, Good ext k (join G turn retain n a b).2 := by
  unfold join
  split_ifs
  · exact ⟨⟨n, ha⟩, n, hb⟩
  · cases h1 : a.refs.getLast? with
    | none => exact ⟨⟨n, ha⟩, n, hb⟩
    | some ra =>
      cases h2 : b.refs.head? with
      | none => exact ⟨⟨n, ha⟩, n, hb⟩
      | some rb =>
        simp only
        split_ifs
        · exact ⟨⟨n, ha⟩, n, hb⟩
        · exact ⟨⟨n, ha⟩, n, hb⟩
        · exact ⟨good_replaceLast ha h1 _, good_replaceFirst (Good.mono hb (Nat.le_succ n)) h2 _⟩

/-! ### Repetitions of points -/

theorem squash_cons (a : P) (l : List P) : squash (a :: l) = if l.head? = some a then squash l else a :: squash l := by
  cases l with
  | nil => simp [squash]
  | cons b l =>
    rw [squash_cons2]
    by_cases h : a = b
    · subst h; simp
    · rw [if_neg h, if_neg]
      simp only [List.head?_cons, Option.some.injEq]
      exact fun hh => h hh.symm

theorem squash_sublist_self (l : List P) : (squash l).Sublist l := by
  induction l with
  | nil => exact List.Sublist.refl _
  | cons a l ih =>
    rw [squash_cons]
    split_ifs
    · exact ih.cons a
    · exact ih.cons_cons a

theorem mem_squash {l : List P} {x : P} : x ∈ squash l ↔ x ∈ l := by
  induction l with
  | nil => rfl
  | cons a l ih =>
    rw [squash_cons]
    split_ifs with h
    · rw [ih, List.mem_cons]
      constructor
      · exact .inr
      · rintro (rfl | h1)
        · exact List.mem_of_mem_head? h
        · exact h1
    · rw [List.mem_cons, List.mem_cons, ih]

theorem squash_mono {l m : List P} (h : l.Sublist m) : (squash l).Sublist (squash m) := by
  induction h with
  | slnil => exact List.Sublist.refl _
  | @cons l m a _ ih =>
    rw [squash_cons]
    split_ifs
    · exact ih
    · exact ih.cons a
  | @cons_cons l m a _ ih =>
    rw [squash_cons, squash_cons]
    split_ifs with h1 h2 h2
    · exact ih
    · exact ih.cons a
    · have hm := squash_head? m
      rw [h2] at hm
      obtain ⟨t, ht⟩ : ∃ t, squash m = a :: t := ⟨_, List.eq_cons_of_mem_head? hm⟩
      rw [ht] at ih ⊢
      refine List.Sublist.cons_cons a ?_
      cases hs : squash l with
      | nil => exact List.nil_sublist _
      | cons b u =>
        rw [hs] at ih
        have hl := squash_head? l
        rw [hs, List.head?_cons] at hl
        cases ih with
        | cons _ h3 => exact h3
        | cons_cons _ h3 => exact absurd hl.symm h1
    · exact ih.cons_cons a

theorem squash_idem (l : List P) : squash (squash l) = squash l := by
  induction l with
  | nil => rfl
  | cons a l ih =>
    rw [squash_cons]
    split_ifs with h
    · exact ih
    · rw [squash_cons, squash_head?, if_neg h, ih]

theorem squash_append (u v : List P) : squash (squash u ++ v) = squash (u ++ v) := by
  induction u with
  | nil => rfl
  | cons a u ih =>
    rw [squash_cons]
    split_ifs with h
    · rw [ih, List.cons_append, squash_cons, if_pos]
      rw [List.head?_append, h]; rfl
    · rw [List.cons_append, List.cons_append, squash_cons, squash_cons, ih]
      have : (squash u ++ v).head? = (u ++ v).head? := by
        rw [List.head?_append, List.head?_append, squash_head?]
      rw [this]

theorem constant_of {ls : List (List P)} (hc : Connected ls) (h : ∀ l ∈ ls, ∀ s ∈ segs l, s.1 = s.2) :
    (squash ls.flatten).tail = [] := by
  by_cases he : ls = []
  · subst he; rfl
  have hg : Good (fun x : Ref P => x.line ∈ ls) 1 (Route.ofRefs (ls.map (Ref.mk 0))) := by
    refine ⟨by simp [Route.ofRefs], by simp [Route.ofRefs], ?_, ?_⟩
    · intro x hx
      obtain ⟨l, hl, rfl⟩ := List.mem_map.1 hx
      exact .inr hl
    · intro x hx
      obtain ⟨l, hl, rfl⟩ := List.mem_map.1 hx
      simp
  have hlines : (Route.ofRefs (ls.map (Ref.mk 0))).lines = ls := by
    simp [Route.ofRefs, Route.lines, Function.comp_def]
  obtain ⟨s, n, _, _, _, h4, _, h6⟩ := merge_parts (ext := fun x : Ref P => x.line ∈ ls) (next := 1)
    (rs := [Route.ofRefs (ls.map (Ref.mk 0))]) false (by simpa using hg) (by simp [Route.ofRefs]) (by simp)
    (by simpa [hlines] using hc)
  have hm : (Route.ofRefs (ls.map (Ref.mk 0))).mergeable = false := by
    rw [Route.mergeable, hlines]
    split_ifs
    · rfl
    · rfl
    · rw [List.any_eq_false]
      intro l hl
      rw [Bool.not_eq_true, List.any_eq_false]
      intro s hs
      simpa using h l hl s hs
  rw [List.filter_cons_of_neg (by simp [hm])] at h4
  rw [h4] at h6
  simp only [List.flatMap_cons, List.flatMap_nil, List.append_nil, hlines] at h6
  rw [moving] at h6
  split_ifs at h6 with ht
  · exact ht
  · have : squash (joined (nonempty (([] : List (Route P)).filter Route.mergeable |>.flatMap Route.lines))) = [] := rfl
    rw [this] at h6
    rw [← h6]
    rfl

theorem constant_all {ls : List (List P)} (hc : Connected ls) (h : ∀ l ∈ ls, ∀ s ∈ segs l, s.1 = s.2) {t : P}
    (ht : ls.flatten.getLast? = some t) : ∀ x ∈ ls.flatten, x = t := by
  have h1 := constant_of hc h
  have h2 := squash_getLast? ls.flatten
  rw [ht] at h2
  intro x hx
  rw [← mem_squash] at hx
  cases hs : squash ls.flatten with
  | nil => rw [hs] at hx; simp at hx
  | cons y ys =>
    rw [hs] at h1 h2 hx
    simp only [List.tail_cons] at h1
    subst h1
    simp at h2 hx
    rw [hx, h2]

/-! ### Lines along given lines -/

variable {M : Type} [AddCommMonoid M]

/-- Lines `ls` from `p` to `q` along the lines `all`: connected, with the points of `all` in order up to repetitions and to
points that may be cut, with the same length, and each segment a piece of road. -/
structure Along (Road : P → P → Prop) (len : P → P → M) (cut : P → Prop) (all ls : List (List P)) (p q : P) : Prop where
  connected : Connected ls
  leads : Leads ls p q
  sub : (squash ls.flatten).Sublist all.flatten
  complete : ∀ x ∈ all.flatten, x ∈ ls.flatten ∨ cut x ∨ x = q
  road : ∀ l ∈ ls, ∀ s ∈ segs l, s.1 ≠ s.2 → Road s.1 s.2
  length : segmentSum len ls = segmentSum len all
  exact : (∀ x, ¬ cut x) → squash ls.flatten = squash all.flatten ∨ (ls.flatten = [] ∧ ∀ x ∈ all.flatten, x = q)

theorem Along.weaken {Road : P → P → Prop} {len : P → P → M} {cut cut' : P → Prop} {all ls : List (List P)} {p q : P}
    (h : Along Road len cut all ls p q) (hc : ∀ x, cut x → cut' x) : Along Road len cut' all ls p q :=
  ⟨h.connected, h.leads, h.sub, fun x hx => (h.complete x hx).imp_right (Or.imp_left (hc x)), h.road, h.length,
    fun hn => h.exact (fun x hx => hn x (hc x hx))⟩

theorem Along.start (Road : P → P → Prop) (len : P → P → M) (cut : P → Prop) (p : P) : Along Road len cut [] [] p p :=
  ⟨List.isChain_nil, .inl ⟨rfl, rfl⟩, List.Sublist.refl _, by simp, by simp, rfl, fun _ => .inl rfl⟩

theorem squash_constant {u v : List P} {q : P} (hu : ∀ x ∈ u, x = q) (hv : v.head? = some q) : squash (u ++ v) = squash v := by
  induction u with
  | nil => rfl
  | cons a u ih =>
    have ih' := ih (fun x hx => hu x (List.mem_cons_of_mem _ hx))
    rw [List.cons_append, squash_cons, if_pos, ih']
    have ha : a = q := hu a List.mem_cons_self
    rw [ha, List.head?_append]
    cases u with
    | nil => exact hv
    | cons b u => rw [hu b (by simp)]; rfl

/-- One leg more. -/
theorem Along.push {Road : P → P → Prop} {len : P → P → M} {cut : P → Prop} {all ls leg : List (List P)} {p q t : P}
    (h : Along Road len cut all ls p q) (hc : Connected leg) (hl : Leads leg q t)
    (hr : ∀ l ∈ leg, ∀ s ∈ segs l, s.1 ≠ s.2 → Road s.1 s.2) : Along Road len cut (all ++ leg) (ls ++ leg) p t := by
  refine ⟨connected_append h.connected hc h.leads hl, leads_append h.leads hl, ?_, ?_, ?_, ?_, ?_⟩
  · rw [List.flatten_append, List.flatten_append, ← squash_append]
    exact (squash_sublist_self _).trans (h.sub.append (List.Sublist.refl _))
  · intro x hx
    rw [List.flatten_append, List.mem_append] at hx ⊢
    rcases hx with hx | hx
    · rcases h.complete x hx with h1 | h1 | rfl
      · exact .inl (.inl h1)
      · exact .inr (.inl h1)
      · rcases hl with ⟨_, h2⟩ | ⟨h2, _⟩
        · exact .inr (.inr h2)
        · exact .inl (.inr (List.mem_of_mem_head? h2))
    · exact .inl (.inr hx)
  · intro l hm
    rcases List.mem_append.1 hm with h1 | h1
    · exact h.road l h1
    · exact hr l h1
  · rw [segmentSum_append, segmentSum_append, h.length]
  · intro hn
    rw [List.flatten_append, List.flatten_append]
    rcases h.exact hn with h1 | ⟨h1, h2⟩
    · left
      rw [← squash_append, h1, squash_append]
    · rcases hl with ⟨h3, h4⟩ | ⟨h3, _⟩
      · right
        rw [h1, h3]
        refine ⟨rfl, fun x hx => ?_⟩
        rw [← h4]
        exact h2 x (by simpa using hx)
      · left
        rw [h1, List.nil_append, squash_constant h2 h3]

/-- Lines without extent are left out. -/
theorem Along.drop {Road : P → P → Prop} {len : P → P → M} {cut : P → Prop} {all ls ls' : List (List P)} {p q : P}
    (h : Along Road len cut all ls p q) (hd : Drop ls ls') : Along Road len cut all ls' p q := by
  have hc' : Connected ls' := drop_chain' hd h.connected
  have hlen : segmentSum len ls' = segmentSum len all := by rw [← drop_segmentSum len hd, h.length]
  have hsub : ∀ l ∈ ls', l ∈ ls := by
    clear h hc' hlen
    induction hd with
    | nil => simp
    | keep l _ ih => exact fun x hx => (List.mem_cons.1 hx).elim (fun e => e ▸ List.mem_cons_self) (fun e => List.mem_cons_of_mem _ (ih x e))
    | drop l _ _ ih => exact fun x hx => List.mem_cons_of_mem _ (ih x hx)
  have hroad : ∀ l ∈ ls', ∀ s ∈ segs l, s.1 ≠ s.2 → Road s.1 s.2 := fun l hl => h.road l (hsub l hl)
  by_cases hb : nonempty ls' = []
  · have hf : ls'.flatten = [] := by rw [← flatten_nonempty, hb]; rfl
    have hconst : ∀ l ∈ ls, ∀ s ∈ segs l, s.1 = s.2 := by
      clear h hc' hlen hroad hsub hf
      induction hd with
      | nil => simp
      | keep l _ ih =>
        rw [nonempty_cons] at hb
        split_ifs at hb with hl
        intro x hx
        rcases List.mem_cons.1 hx with rfl | hx
        · rw [hl]; simp [segs]
        · exact ih hb x hx
      | drop l hl _ ih =>
        intro x hx
        rcases List.mem_cons.1 hx with rfl | hx
        · exact hl
        · exact ih hb x hx
    have hpq : p = q := by
      rcases h.leads with ⟨_, h1⟩ | ⟨h1, h2⟩
      · exact h1
      · exact constant_all h.connected hconst h2 p (List.mem_of_mem_head? h1)
    have hcomp : ∀ x ∈ all.flatten, x ∈ ls'.flatten ∨ cut x ∨ x = q := by
      intro x hx
      rcases h.complete x hx with h1 | h1
      · rcases h.leads with ⟨h2, _⟩ | ⟨_, h2⟩
        · rw [h2] at h1; simp at h1
        · exact .inr (.inr (constant_all h.connected hconst h2 x h1))
      · exact .inr h1
    refine ⟨hc', .inl ⟨hf, hpq⟩, by rw [hf]; exact List.nil_sublist _, hcomp, hroad, hlen, ?_⟩
    intro hn
    refine .inr ⟨hf, fun x hx => ?_⟩
    rcases hcomp x hx with h1 | h1 | h1
    · rw [hf] at h1; simp at h1
    · exact absurd h1 (hn x)
    · exact h1
  · have hs : squash ls'.flatten = squash ls.flatten := by
      rw [squash_flatten hc', squash_flatten h.connected, drop_squash hd h.connected hb]
    refine ⟨hc', ?_, by rw [hs]; exact h.sub, ?_, hroad, hlen, ?_⟩
    · rcases h.leads with ⟨h1, h2⟩ | ⟨h1, h2⟩
      · refine .inl ⟨?_, h2⟩
        have := squash_head? ls'.flatten
        rw [hs, h1] at this
        exact List.head?_eq_none_iff.1 this.symm
      · refine .inr ⟨?_, ?_⟩
        · rw [← squash_head?, hs, squash_head?, h1]
        · rw [← squash_getLast?, hs, squash_getLast?, h2]
    · intro x hx
      rcases h.complete x hx with h1 | h1
      · refine .inl ?_
        rw [← mem_squash, hs, mem_squash]
        exact h1
      · exact .inr h1
    · intro hn
      rcases h.exact hn with h1 | ⟨h1, h2⟩
      · exact .inl (hs.trans h1)
      · refine .inr ⟨?_, h2⟩
        have := squash_head? ls'.flatten
        rw [hs, h1] at this
        exact List.head?_eq_none_iff.1 this.symm

/-- The length of a segment. -/
def span (len : P → P → M) (a b : P) : M := if a = b then 0 else len a b

theorem segmentSum_span (len : P → P → M) (ls : List (List P)) :
    segmentSum len ls = ((ls.flatMap segs).map (fun s => span len s.1 s.2)).sum := by
  unfold segmentSum
  induction ls.flatMap segs with
  | nil => rfl
  | cons s ss ih =>
    rw [List.map_cons, List.sum_cons, ← ih, span]
    by_cases h : s.1 = s.2
    · rw [if_pos h, List.filter_cons_of_neg (by simpa using h), zero_add]
    · rw [if_neg h, List.filter_cons_of_pos (by simpa using h), List.map_cons, List.sum_cons]

theorem segs_snoc (pre : List P) (x y : P) : segs (pre ++ [x, y]) = segs (pre ++ [x]) ++ [(x, y)] := by
  induction pre with
  | nil => simp [segs]
  | cons a pre ih =>
    cases pre with
    | nil => simp [segs]
    | cons b pre =>
      have h1 : ∀ l : List P, segs (a :: b :: pre ++ l) = (a, b) :: segs (b :: pre ++ l) := by intro l; simp [segs]
      rw [h1, h1, ih]
      rfl

theorem segs_cons2 (x y : P) (l : List P) : segs (x :: y :: l) = (x, y) :: segs (y :: l) := by simp [segs]

/-- The joint `q` between two lines is left out. -/
theorem Along.join {Road : P → P → Prop} {len : P → P → M} {cut : P → Prop} {all K bs : List (List P)} {pre post : List P}
    {x y z w p t : P} (h : Along Road len cut all (K ++ [pre ++ [x, y]] ++ (z :: w :: post) :: bs) p t)
    (hr : x ≠ y → y ≠ w → Road x y → Road y w → (x ≠ w → Road x w) ∧ span len x w = len x y + len y w) :
    y = z ∧ Along Road len (fun a => cut a ∨ a = y) all
      (K ++ [pre ++ [x, w]] ++ ((if post = [] then [] else [w :: post]) ++ bs)) p t := by
  have hyz : y = z := by
    have := meets_of_connected (u := K ++ [pre ++ [x, y]]) (v := (z :: w :: post) :: bs) h.connected
      (l1 := pre ++ [x, y]) (l2 := z :: w :: post) (by simp) rfl (by simp) (by simp)
    rw [Meets] at this
    simpa using this
  refine ⟨hyz, ?_⟩
  subst hyz
  have hbs : ∀ v, bs.flatten.head? = some v → (y :: w :: post).getLast? = some v := by
    intro v hv
    have hc := h.connected
    unfold Connected at hc
    rw [nonempty_append, nonempty_cons, if_neg (by simp), List.isChain_append] at hc
    have hc2 := hc.2.1
    cases hn : nonempty bs with
    | nil =>
      rw [← flatten_nonempty, hn] at hv
      simp at hv
    | cons l ls =>
      rw [hn, List.isChain_cons_cons, Meets] at hc2
      have hh := first_nonempty bs (l := l) (by rw [hn]; rfl)
      rw [hc2.1, ← hh, hv]
  have hfold : (K ++ [pre ++ [x, y]] ++ (y :: w :: post) :: bs).flatten =
      K.flatten ++ pre ++ [x] ++ y :: y :: w :: (post ++ bs.flatten) := by simp
  have hfnew : (K ++ [pre ++ [x, w]] ++ ((if post = [] then [] else [w :: post]) ++ bs)).flatten =
      K.flatten ++ pre ++ [x] ++ w :: ((if post = [] then [] else w :: post) ++ bs.flatten) := by
    split_ifs <;> simp
  have hconn : Connected (K ++ [pre ++ [x, w]] ++ ((if post = [] then [] else [w :: post]) ++ bs)) := by
    have hc := h.connected
    unfold Connected at hc ⊢
    rw [nonempty_append, List.isChain_append] at hc ⊢
    obtain ⟨h1, h2, _⟩ := hc
    refine ⟨?_, ?_, ?_⟩
    · rw [nonempty_append, List.isChain_append] at h1 ⊢
      have hn : ∀ v : P, nonempty [pre ++ [x, v]] = [pre ++ [x, v]] := by
        intro v; rw [nonempty_cons, if_neg (by simp)]; rfl
      rw [hn] at h1 ⊢
      refine ⟨h1.1, List.isChain_singleton _, ?_⟩
      intro u hu v hv
      have h3 := h1.2.2 u hu (pre ++ [x, y]) (by simp)
      simp only [List.head?_cons, Option.mem_def, Option.some.injEq] at hv
      subst hv
      rw [Meets] at h3 ⊢
      rw [h3]
      cases pre <;> rfl
    · rw [nonempty_cons, if_neg (by simp)] at h2
      rw [nonempty_append]
      split_ifs with hp
      · exact h2.tail
      · rw [nonempty_cons, if_neg (by simp)]
        simp only [show nonempty ([] : List (List P)) = [] from rfl, List.cons_append, List.nil_append]
        cases hn : nonempty bs with
        | nil => exact List.isChain_singleton _
        | cons l ls =>
          rw [hn, List.isChain_cons_cons] at h2
          rw [List.isChain_cons_cons]
          refine ⟨?_, h2.2⟩
          rw [Meets, ← h2.1, List.getLast?_cons_cons]
    · intro u hu v hv
      rw [nonempty_append, nonempty_cons, if_neg (by simp), show nonempty ([] : List (List P)) = [] from rfl,
        List.getLast?_append] at hu
      simp only [List.getLast?_singleton, Option.some_or, Option.mem_def, Option.some.injEq] at hu
      subst hu
      have hh := first_nonempty _ hv
      rw [Meets, ← hh]
      rw [List.flatten_append, List.head?_append]
      split_ifs with hp
      · subst hp
        simp only [List.flatten_nil, List.head?_nil, Option.none_or]
        cases hb : bs.flatten.head? with
        | none =>
          exfalso
          rw [List.flatten_append, List.head?_append] at hh
          simp only [if_true, List.flatten_nil, List.head?_nil, Option.none_or, hb] at hh
          exact nonempty_all _ v (List.mem_of_mem_head? hv) (List.head?_eq_none_iff.1 hh.symm)
        | some b =>
          have := hbs b hb
          simp at this
          simp [this]
      · simp
  have hlast : ∀ l : List P, (y :: w :: (post ++ l)).getLast? =
      (w :: ((if post = [] then [] else w :: post) ++ l)).getLast? := by
    intro l
    by_cases hp : post = []
    · subst hp; simp
    · rw [if_neg hp, List.getLast?_cons_cons]
      simp [List.getLast?_cons_cons]
  refine ⟨hconn, ?_, ?_, ?_, ?_, ?_, fun hn => absurd (.inr rfl) (hn y)⟩
  · right
    have hl := h.leads
    rw [Leads, hfold] at hl
    rw [hfnew]
    rcases hl with ⟨hl, _⟩ | ⟨hl1, hl2⟩
    · simp at hl
    · constructor
      · rw [← hl1]
        cases K.flatten ++ pre <;> simp
      · have e : ∀ u v : List P, v ≠ [] → (u ++ v).getLast? = v.getLast? := by
          intro u v hv
          rw [List.getLast?_append, List.getLast?_eq_getLast_of_ne_nil hv]
          rfl
        rw [← hl2, e _ _ (by simp), e _ _ (by simp), List.getLast?_cons_cons, hlast]
  · have : squash (K ++ [pre ++ [x, w]] ++ ((if post = [] then [] else [w :: post]) ++ bs)).flatten =
        squash (K.flatten ++ pre ++ [x] ++ w :: (post ++ bs.flatten)) := by
      rw [hfnew]
      by_cases hp : post = []
      · subst hp; simp
      · rw [if_neg hp, List.cons_append, squash_dup]
    rw [this]
    refine (squash_mono ?_).trans (hfold ▸ h.sub)
    exact List.Sublist.append (List.Sublist.refl _) (((List.Sublist.refl _).cons y).cons y)
  · intro a ha
    rcases h.complete a ha with h1 | h1 | h1
    · rw [hfold] at h1
      rw [hfnew]
      by_cases hy : a = y
      · exact .inr (.inl (.inr hy))
      · left
        by_cases hp : post = []
        · subst hp; simpa [hy] using h1
        · simp only [if_neg hp]
          simp only [List.mem_append, List.mem_cons, hy, false_or] at h1 ⊢
          tauto
    · exact .inr (.inl (.inl h1))
    · exact .inr (.inr h1)
  · intro l hl s hs hne
    have hin : ∀ l' ∈ K ++ [pre ++ [x, y]] ++ (y :: w :: post) :: bs, ∀ s ∈ segs l', s.1 ≠ s.2 → Road s.1 s.2 := h.road
    simp only [List.mem_append, List.mem_singleton] at hl
    rcases hl with (hl | rfl) | hl | hl
    · exact hin l (by simp [hl]) s hs hne
    · rw [segs_snoc] at hs
      rcases List.mem_append.1 hs with h1 | h1
      · exact hin (pre ++ [x, y]) (by simp) s (by rw [segs_snoc]; exact List.mem_append_left _ h1) hne
      · rw [List.mem_singleton.1 h1] at hne ⊢
        simp only at hne ⊢
        have hxy : x ≠ y → Road x y := hin (pre ++ [x, y]) (by simp) (x, y) (by rw [segs_snoc]; simp)
        have hyw : y ≠ w → Road y w := hin (y :: w :: post) (by simp) (y, w) (by rw [segs_cons2]; simp)
        by_cases e1 : x = y
        · rw [e1] at hne ⊢; exact hyw hne
        · by_cases e2 : y = w
          · rw [← e2]; exact hxy e1
          · exact (hr e1 e2 (hxy e1) (hyw e2)).1 hne
    · split_ifs at hl with hp
      · simp at hl
      · rw [List.mem_singleton] at hl
        subst hl
        exact hin (y :: w :: post) (by simp) s (by rw [segs_cons2]; exact List.mem_cons_of_mem _ hs) hne
    · exact hin l (by simp [hl]) s hs hne
  · rw [← h.length, segmentSum_span, segmentSum_span]
    have hif : ((if post = [] then [] else [w :: post]) : List (List P)).flatMap segs = segs (w :: post) := by
      split_ifs with hp
      · subst hp; simp [segs]
      · simp
    simp only [List.flatMap_append, List.flatMap_cons, List.flatMap_nil, List.append_nil, hif, segs_snoc, segs_cons2,
      List.map_append, List.map_cons, List.map_nil, List.sum_append, List.sum_cons, List.sum_nil, add_zero]
    have key : span len x w = span len x y + span len y w := by
      by_cases e1 : x = y
      · subst e1; simp [span]
      · by_cases e2 : y = w
        · subst e2; simp [span]
        · have hxy : x ≠ y → Road x y := h.road (pre ++ [x, y]) (by simp) (x, y) (by rw [segs_snoc]; simp)
          have hyw : y ≠ w → Road y w := h.road (y :: w :: post) (by simp) (y, w) (by rw [segs_cons2]; simp)
          rw [(hr e1 e2 (hxy e1) (hyw e2)).2]
          simp [span, e1, e2]
    rw [key]
    simp only [add_assoc]

/-! ### The loop over the policy -/

theorem join_split (G : Geo P R A) (turn : A → Bool) (n : Nat) {a b : Route P} (hia : a.invalid = false)
    (hib : b.invalid = false) :
    join G turn true n a b = (a, b) ∨ ∃ pre x y z w post,
      a.lines.getLast? = some (pre ++ [x, y]) ∧ b.lines.head? = some (z :: w :: post) ∧
      ¬ (x ≠ y ∧ z ≠ w ∧ turn (G.dir (G.az x y) (G.az z w)) = true) ∧
      (join G turn true n a b).1.lines = a.lines.dropLast ++ [pre ++ [x, w]] ∧
      (join G turn true n a b).2.lines = (if post = [] then [] else [w :: post]) ++ b.lines.tail ∧
      (join G turn true n a b).1.invalid = false ∧ (join G turn true n a b).2.invalid = false := by
  cases hra : a.refs.getLast? with
  | none => left; unfold join; simp [hia, hib, hra]
  | some ra =>
    cases hrb : b.refs.head? with
    | none => left; unfold join; simp [hia, hib, hra, hrb]
    | some rb =>
      by_cases h2 : ra.line.length < 2 ∨ rb.line.length < 2
      · left; unfold join; simp [hia, hib, hra, hrb, h2]
      · push Not at h2
        obtain ⟨pre, x, y, hx⟩ := two_last h2.1
        obtain ⟨z, w, post, hz⟩ := two_first h2.2
        have hla : a.lines.getLast? = some (pre ++ [x, y]) := by
          rw [Route.lines, List.getLast?_map, hra, Option.map_some, hx]
        have hlb : b.lines.head? = some (z :: w :: post) := by
          rw [Route.lines, List.head?_map, hrb, Option.map_some, hz]
        by_cases hrev : x ≠ y ∧ z ≠ w ∧ turn (G.dir (G.az x y) (G.az z w)) = true
        · left
          exact join_retains G turn n ⟨x, y, z, w, pre, post, hla, hlb, hrev.1, hrev.2.1, hrev.2.2⟩
        · right
          exact ⟨pre, x, y, z, w, post, hla, hlb, hrev,
            join_cases G turn true n a b pre post x y z w hla hlb hia hib (by rintro ⟨_, h⟩; exact hrev h)⟩

/-- The routes kept so far lead from `p` to `q` along the lines `all`, and everything they refer to is alive. -/
structure Part (net : Ref P → Prop) (Road : P → P → Prop) (len : P → P → M) (cut : P → Prop) (all : List (List P))
    (rs : List (Route P)) (p q : P) : Prop where
  valid : ∀ r ∈ rs, r.invalid = false ∧ ∃ n, Good net n r
  along : Along Road len cut all (rs.flatMap Route.lines) p q
  empty : rs = [] → ∀ l ∈ all, ∀ sg ∈ segs l, sg.1 = sg.2

/-- The point is an end of the segment that the index finds nearest to it. -/
def AtEnd (nearest : P → Option (P × P)) (p : P) : Prop := ∃ a b, nearest p = some (a, b) ∧ (p = a ∨ p = b)

theorem atEnd_iff (nearest : P → Option (P × P)) (p : P) : pointInEdges nearest p = false ↔ ¬ AtEnd nearest p := by
  unfold pointInEdges AtEnd
  cases h : nearest p with
  | none => simp
  | some s =>
    obtain ⟨a, b⟩ := s
    simp only [Bool.or_eq_false_iff, decide_eq_false_iff_not, Option.some.injEq, Prod.mk.injEq, not_exists, not_and, not_or]
    constructor
    · rintro ⟨h1, h2⟩ a' b' ⟨rfl, rfl⟩
      exact ⟨fun h => h1 h.symm, fun h => h2 h.symm⟩
    · intro h1
      obtain ⟨h2, h3⟩ := h1 a b ⟨rfl, rfl⟩
      exact ⟨fun h => h2 h.symm, fun h => h3 h.symm⟩

/-- What is asked of roads where joints are removed: a point that is not an end of the nearest segment, and where the
travel does not turn back, is inside a straight piece of road. -/
def Straight (s : Setting P R A) (Road : P → P → Prop) (len : P → P → M) : Prop :=
  ∀ x y w, ¬ AtEnd s.nearest y → x ≠ y → y ≠ w → s.turn (s.G.dir (s.G.az x y) (s.G.az y w)) = false →
    Road x y → Road y w → (x ≠ w → Road x w) ∧ span len x w = len x y + len y w

theorem drop_append_last (a b : List (List P)) (h : ∀ l ∈ b, ∀ s ∈ segs l, s.1 = s.2) : Drop (a ++ b) a := by
  induction a with
  | nil => exact drop_all b h
  | cons l a ih => exact .keep l ih

theorem joinStep_spec {s : Setting P R A} {net : Ref P → Prop} {Road : P → P → Prop} {len : P → P → M}
    {cut : P → Prop} {all : List (List P)} {done cur : List (Route P)} {skipped : Bool} {r : Route P} {p q t : P}
    (hstr : s.joins = true → Straight s Road len) (hstate : cur = [] → done = [] ∨ skipped = true ∨ s.joins = false)
    (h : Part net Road len cut all cur p q) (hl : Leg net r q t)
    (hroad : ∀ l ∈ r.lines, ∀ sg ∈ segs l, sg.1 ≠ sg.2 → Road sg.1 sg.2) :
    ∃ cur1 r1, joinStep s (done ++ cur) skipped r = (done ++ cur1, r1) ∧ cur1.length = cur.length ∧ (cur = [] → r1 = r) ∧
      Part net Road len (fun a => cut a ∨ (s.joins = true ∧ ¬ AtEnd s.nearest a ∧ a = q)) (all ++ r.lines)
        (cur1 ++ [r1]) p t := by
  have hpush : Part net Road len cut (all ++ r.lines) (cur ++ [r]) p t := by
    refine ⟨?_, ?_, by simp⟩
    · intro x hx
      rcases List.mem_append.1 hx with hx | hx
      · exact h.valid x hx
      · rw [List.mem_singleton.1 hx]; exact ⟨hl.valid, hl.good⟩
    · have := h.along.push hl.connected hl.leads hroad
      simpa [List.flatMap_append] using this
  have hsame : Part net Road len (fun a => cut a ∨ (s.joins = true ∧ ¬ AtEnd s.nearest a ∧ a = q))
      (all ++ r.lines) (cur ++ [r]) p t := ⟨hpush.valid, hpush.along.weaken (fun x hx => .inl hx), by simp⟩
  unfold joinStep
  cases hg : (done ++ cur).getLast? with
  | none => exact ⟨cur, r, rfl, rfl, fun _ => rfl, hsame⟩
  | some prev =>
    simp only
    split_ifs with hcond
    · simp only [Bool.and_eq_true, Bool.not_eq_true'] at hcond
      obtain ⟨⟨⟨⟨⟨hj, hsk⟩, _⟩, _⟩, hpi⟩, hfree⟩ := hcond
      have hcur : cur ≠ [] := by
        intro hc
        rcases hstate hc with h1 | h1 | h1
        · rw [hc, h1] at hg; simp at hg
        · rw [h1] at hsk; simp at hsk
        · rw [h1] at hj; simp at hj
      have hgc : cur.getLast? = some prev := by
        rw [List.getLast?_append, List.getLast?_eq_getLast_of_ne_nil hcur] at hg
        rw [List.getLast?_eq_getLast_of_ne_nil hcur]
        simpa using hg
      obtain ⟨init, rfl⟩ := List.getLast?_eq_some_iff.1 hgc
      have hgp : Good net (unused s [prev, r]) prev := by
        obtain ⟨_, n, hn⟩ := h.valid prev (by simp)
        exact hn.top (tops (rs := [prev, r]) (next := s.free) (by simp))
      have hgr : Good net (unused s [prev, r]) r := by
        obtain ⟨n, hn⟩ := hl.good
        exact hn.top (tops (rs := [prev, r]) (next := s.free) (by simp))
      have hjg := join_good s.G s.turn true hgp hgr
      refine ⟨init ++ [(join s.G s.turn true (unused s [prev, r]) prev r).1],
        (join s.G s.turn true (unused s [prev, r]) prev r).2, ?_, by simp, by simp, ?_⟩
      · rw [← List.append_assoc, List.dropLast_concat, List.append_assoc]
      · rcases join_split s.G s.turn (unused s [prev, r]) hpi hl.valid with he | ⟨pre, x, y, z, w, post, h1, h2, h3, h4, h5, h6, h7⟩
        · rw [he]; exact hsame
        · obtain ⟨as, has⟩ := List.getLast?_eq_some_iff.1 h1
          obtain ⟨bs, hbs⟩ : ∃ bs, r.lines = (z :: w :: post) :: bs := ⟨_, List.eq_cons_of_mem_head? h2⟩
          rw [has, List.dropLast_concat] at h4
          rw [hbs, List.tail_cons] at h5
          have hal := hpush.along
          have e1 : (init ++ [prev] ++ [r]).flatMap Route.lines =
              (init.flatMap Route.lines ++ as) ++ [pre ++ [x, y]] ++ (z :: w :: post) :: bs := by
            simp [List.flatMap_append, has, hbs]
          rw [e1] at hal
          have hyq : y = q := by
            have := h.along.leads
            have e : (init ++ [prev]).flatMap Route.lines = (init.flatMap Route.lines ++ as) ++ [pre ++ [x, y]] := by
              simp [List.flatMap_append, has]
            rw [e, Leads] at this
            rcases this with ⟨h8, _⟩ | ⟨_, h8⟩
            · simp at h8
            · simpa using h8
          have hpe : ¬ AtEnd s.nearest y := by
            rw [← atEnd_iff]
            unfold freeEnd at hfree
            have hl2 : prev.refs.getLast?.bind (fun r => r.line.getLast?) = some y := by
              rw [Route.lines, List.getLast?_map] at h1
              obtain ⟨ra, hra, hra2⟩ := Option.map_eq_some_iff.1 h1
              rw [hra, Option.bind_some, hra2]
              simp
            rw [hl2] at hfree
            simpa using hfree
          have hyz : y = z := by
            have := meets_of_connected (u := (init.flatMap Route.lines ++ as) ++ [pre ++ [x, y]]) (v := (z :: w :: post) :: bs)
              hal.connected (l1 := pre ++ [x, y]) (l2 := z :: w :: post) (by simp) rfl (by simp) (by simp)
            rw [Meets] at this
            simpa using this
          subst hyz
          obtain ⟨_, hal2⟩ := hal.join (fun e1 e2 r1 r2 => hstr hj x y w hpe e1 e2
            (by
              by_contra hc
              rw [Bool.not_eq_false] at hc
              exact h3 ⟨e1, e2, hc⟩) r1 r2)
          refine ⟨?_, ?_, by simp⟩
          · intro a ha
            simp only [List.append_assoc, List.mem_append, List.mem_cons, List.not_mem_nil, or_false] at ha
            rcases ha with ha | rfl | rfl
            · exact h.valid a (by simp [ha])
            · exact ⟨h6, hjg.1⟩
            · exact ⟨h7, hjg.2⟩
          · have e2 : (init ++ [(join s.G s.turn true (unused s [prev, r]) prev r).1] ++
                [(join s.G s.turn true (unused s [prev, r]) prev r).2]).flatMap Route.lines =
                (init.flatMap Route.lines ++ as) ++ [pre ++ [x, w]] ++ ((if post = [] then [] else [w :: post]) ++ bs) := by
              simp [List.flatMap_append, h4, h5]
            rw [e2]
            refine hal2.weaken ?_
            rintro a (ha | ha)
            · exact .inl ha
            · exact .inr ⟨hj, ha ▸ hpe, ha.trans hyq⟩
    · exact ⟨cur, r, rfl, rfl, fun _ => rfl, hsame⟩

theorem step_spec {s : Setting P R A} {net : Ref P → Prop} {Road : P → P → Prop} {len : P → P → M}
    {cut : P → Prop} {all : List (List P)} {done cur : List (Route P)} {skipped : Bool} {r : Route P} {p q t : P}
    (hstr : s.joins = true → Straight s Road len) (hstate : cur = [] → done = [] ∨ skipped = true ∨ s.joins = false)
    (h : Part net Road len cut all cur p q) (hl : Leg net r q t)
    (hroad : ∀ l ∈ r.lines, ∀ sg ∈ segs l, sg.1 ≠ sg.2 → Road sg.1 sg.2) :
    ∃ cur', (step s (done ++ cur) skipped r).1 = done ++ cur' ∧
      (cur' = [] → done = [] ∨ (step s (done ++ cur) skipped r).2 = true ∨ s.joins = false) ∧
      Part net Road len (fun a => cut a ∨ (s.joins = true ∧ ¬ AtEnd s.nearest a ∧ a = q)) (all ++ r.lines)
        cur' p t := by
  obtain ⟨cur1, r1, h1, h2, h0, h3⟩ := joinStep_spec hstr hstate h hl hroad
  unfold step
  rw [h1]
  simp only
  have hv1 := (h3.valid r1 (by simp)).1
  split_ifs with hk
  · exact ⟨cur1 ++ [r1], by rw [List.append_assoc], by simp, h3⟩
  · have hno : ∀ l ∈ r1.lines, ∀ sg ∈ segs l, sg.1 = sg.2 := by
      intro l hl sg hsg
      by_contra hne
      apply hk
      rw [kept, hv1]
      exact (routeLength_isSome s.G _).2 ⟨l, hl, sg, hsg, hne⟩
    have hcur : cur1 = [] → cur = [] := by
      intro hc
      rw [hc] at h2
      exact List.length_eq_zero_iff.1 h2.symm
    refine ⟨cur1, rfl, fun hc => hstate (hcur hc), fun x hx => h3.valid x (by simp [hx]), ?_, ?_⟩
    · refine h3.along.drop ?_
      rw [List.flatMap_append]
      simpa using drop_append_last (cur1.flatMap Route.lines) r1.lines hno
    · intro hc l hl2
      rcases List.mem_append.1 hl2 with h4 | h4
      · exact h.empty (hcur hc) l h4
      · rw [h0 (hcur hc)] at hno
        exact hno l h4

/-! ### Routes between consecutive candidates -/

/-- Two entries of the policy are of different measurements, and their candidates are linked by the network: they are at the
same point; or a path of the network leads from the end of the first edge to the begin of the second (and they are not one
behind the other on the same edge); or the second is further along the same edge. -/
inductive Linked (s : Setting P R A) (net : Ref P → Prop) (p q : Entry) : Prop
  | same (hpos : p.1 ≠ q.1) (h : (s.cand p).proj = (s.cand q).proj)
  | over (path : List (Ref P)) (v w : P) (hpos : p.1 ≠ q.1) (hp : s.path p q = Route.ofRefs path)
      (hpath : ∀ x ∈ path, Known net s.free x ∧ x.line ≠ []) (hconn : Connected (path.map Ref.line))
      (hlead : Leads (path.map Ref.line) v w) (hc : Known net s.free (s.cand p).behind) (hd : Known net s.free (s.cand q).before)
      (hcl : Leads [(s.cand p).behind.line] (s.cand p).proj v) (hdl : Leads [(s.cand q).before.line] w (s.cand q).proj)
      (hne : (s.cand p).proj ≠ (s.cand q).proj) (hov : overlap s.G s.edgeLine (s.cand p) (s.cand q) = none)
      (hw : s.within = false ∨ ∀ x ∈ path, 2 ≤ x.line.length ∧ x.line.IsChain (· ≠ ·))
  | edge (a b start whole : R) (hpos : p.1 ≠ q.1) (hne : (s.cand p).proj ≠ (s.cand q).proj) (he : (s.cand p).edge = (s.cand q).edge)
      (h2 : 2 ≤ (s.edgeLine (s.cand p).edge).length) (hchain : (s.edgeLine (s.cand p).edge).IsChain (· ≠ ·))
      (hs : (Substring.marks s.G (s.edgeLine (s.cand p).edge)).Pairwise (fun x y => x.2 ≤ y.2))
      (ha : plainLength s.G (s.cand p).before.line = some a) (hb : plainLength s.G (s.cand q).before.line = some b)
      (hst : plainLength s.G (s.cand p).behind.line = some start)
      (hwh : plainLength s.G (s.edgeLine (s.cand p).edge) = some whole)
      (h0 : s.G.zeroR < a) (hab : a < b) (hsum : whole ≤ s.G.addR start b)
      (hend : ∃ x ∈ Substring.marks s.G (s.edgeLine (s.cand p).edge), a < x.2)

theorem piece_leads (p : P) (mid : List P) (q : P) : Leads [Substring.piece p mid q] p q := by
  right
  simp only [List.flatten_cons, List.flatten_nil, List.append_nil]
  unfold Substring.piece
  by_cases hm : mid = []
  · rw [if_pos hm]; simp
  · rw [if_neg hm]
    constructor
    · by_cases h1 : mid.head? = some p
      · rw [if_pos h1, List.nil_append, List.head?_append, h1]; rfl
      · rw [if_neg h1]; rfl
    · by_cases h1 : mid.getLast? = some q
      · rw [if_pos h1, List.append_nil, List.getLast?_append, h1]; rfl
      · rw [if_neg h1]; simp

theorem Linked.leg {s : Setting P R A} {net : Ref P → Prop} {p q : Entry} (h : Linked s net p q) :
    p.1 ≠ q.1 ∧ ∃ r, s.leg p q = .ok r ∧ Leg net r (s.cand p).proj (s.cand q).proj := by
  cases h with
  | same hpos h =>
    refine ⟨hpos, Route.ofRefs [], (candidate_route_none s.G s.interp s.turn s.edgeLine s.within s.free _ _ _).1 h, rfl,
      ⟨0, by simp [Route.ofRefs], by simp [Route.ofRefs], by simp [Route.ofRefs], by simp [Route.ofRefs]⟩,
      List.isChain_nil, .inl ⟨rfl, h⟩⟩
  | over path v w hpos hp hpath hconn hlead hc hd hcl hdl hne hov hw =>
    refine ⟨hpos, ?_⟩
    have ls := ofRefs_leg (ext := net) hc.1 hcl
    have le := ofRefs_leg (ext := net) hd.1 hdl
    have hlines : (Route.ofRefs path).lines = path.map Ref.line := rfl
    have lm : Leg net (Route.ofRefs path) v w := by
      refine ⟨rfl, ⟨s.free, by simp [Route.ofRefs], by simp [Route.ofRefs], ?_, ?_⟩, hconn, hlead⟩
      · intro x hx; exact .inr (hpath x hx).1.1
      · intro x hx; exact (hpath x hx).1.2
    rw [Setting.leg, candidateRoute, if_neg hne, hov, hp]
    simp only
    rw [if_neg (by simp [Route.ofRefs])]
    by_cases hwi : s.within = true
    · rw [if_pos hwi]
      have hnm : (Route.ofRefs path).top ≤ s.free := by
        have : ∀ xs : List (Ref P), (∀ x ∈ xs, x.addr < s.free) → xs.foldr (fun x n => max (x.addr + 1) n) 0 ≤ s.free := by
          intro xs
          induction xs with
          | nil => simp
          | cons y ys ih =>
            intro h
            rw [List.foldr_cons]
            have h1 := ih (fun x hx => h x (List.mem_cons_of_mem _ hx))
            have h2 := h y List.mem_cons_self
            omega
        exact this _ (fun x hx => (hpath x hx).1.2)
      obtain ⟨r, ext', h1, h2, h3⟩ := trim_ends s.G s.turn (next := s.free) ls lm le rfl
        (by rw [hlines]; intro l hl; obtain ⟨x, hx, rfl⟩ := List.mem_map.1 hl; exact (hpath x hx).2) hc.2 hnm hd.2
      refine ⟨r, h1, h3 ?_⟩
      rw [hlines]
      intro l hl
      obtain ⟨x, hx, rfl⟩ := List.mem_map.1 hl
      rcases hw with hw | hw
      · rw [hw] at hwi; simp at hwi
      · exact hw x hx
    · rw [if_neg hwi]
      obtain ⟨r, h1, h2, _⟩ := three_legs s.free ls lm le
      exact ⟨r, h1, h2⟩
  | edge a b start whole hpos hne he h2 hchain hs ha hb hst hwh h0 hab hsum hend =>
    refine ⟨hpos, _, candidate_route_same_edge_partial s.G s.interp s.turn s.edgeLine s.within s.free (s.path p q) hne he h2
      hchain hs ha hb hst hwh h0 hab hsum hend, rfl, ⟨s.free + 1, ?_, ?_, ?_, ?_⟩, ?_, ?_⟩
    · simp [Route.ofOwn]
    · simp [Route.ofOwn]
    · simp [Route.ofOwn]
    · simp [Route.ofOwn]
    · simp only [Connected, nonempty, Route.ofOwn, Route.lines, List.map_cons, List.map_nil]
      by_cases h : Substring.piece (s.cand p).proj (Substring.interior s.G (s.edgeLine (s.cand p).edge) a b) (s.cand q).proj = []
      · simp [h]
      · simp [h]
    · simpa [Route.ofOwn, Route.lines] using piece_leads (s.cand p).proj
        (Substring.interior s.G (s.edgeLine (s.cand p).edge) a b) (s.cand q).proj

/-- All segments of the route between two candidates are pieces of road. -/
def OnRoad (s : Setting P R A) (Road : P → P → Prop) (p q : Entry) : Prop :=
  ∀ r, s.leg p q = .ok r → ∀ l ∈ r.lines, ∀ sg ∈ segs l, sg.1 ≠ sg.2 → Road sg.1 sg.2

theorem collect_cons2 (s : Setting P R A) (p q : Entry) (rest : List Entry) (routes : List (Route P)) (sk : Bool) :
    collect s (p :: q :: rest) routes sk = if p.1 = q.1 then collect s rest routes true
      else (s.leg p q).bind fun r => collect s (q :: rest) (step s routes sk r).1 (step s routes sk r).2 := by
  rw [collect]

theorem collect_run {s : Setting P R A} {net : Ref P → Prop} {Road : P → P → Prop} {len : P → P → M}
    (hstr : s.joins = true → Straight s Road len) (done : List (Route P)) (tail : List Entry) (p0 : P) :
    ∀ (es : List Entry) (e : Entry) (cur : List (Route P)) (sk : Bool) (cut : P → Prop) (all : List (List P)),
    (cur = [] → done = [] ∨ sk = true ∨ s.joins = false) → (e :: es).IsChain (Linked s net) →
    (e :: es).IsChain (OnRoad s Road) → Part net Road len cut all cur p0 (s.cand e).proj →
    ∃ (legs cur' : List (Route P)) (sk' : Bool), collect s (e :: es ++ tail) (done ++ cur) sk =
        collect s ((e :: es).getLast (by simp) :: tail) (done ++ cur') sk' ∧
      (cur' = [] → done = [] ∨ sk' = true ∨ s.joins = false) ∧
      ((e :: es).zip es).map (fun t => s.leg t.1 t.2) = legs.map Outcome.ok ∧
      Part net Road len (fun a => cut a ∨ (s.joins = true ∧ ¬ AtEnd s.nearest a ∧
          a ∈ (e :: es).dropLast.map (fun i => (s.cand i).proj))) (all ++ legs.flatMap Route.lines) cur' p0
        (s.cand ((e :: es).getLast (by simp))).proj := by
  intro es
  induction es with
  | nil =>
    intro e cur sk cut all hst _ _ hp
    refine ⟨[], cur, sk, rfl, hst, rfl, hp.valid, ?_, ?_⟩
    · simpa using hp.along
    · simpa using hp.empty
  | cons f es ih =>
    intro e cur sk cut all hst hch hrd hp
    rw [List.isChain_cons_cons] at hch hrd
    obtain ⟨hpos, r, hr, hl⟩ := hch.1.leg
    obtain ⟨cur1, h1, h2, h3⟩ := step_spec (skipped := sk) hstr hst hp hl (hrd.1 r hr)
    obtain ⟨legs, cur', sk', h4, h5, h6, h7⟩ := ih f cur1 (step s (done ++ cur) sk r).2 _ _ h2 hch.2 hrd.2 h3
    refine ⟨r :: legs, cur', sk', ?_, h5, ?_, h7.valid, ?_, ?_⟩
    · rw [List.cons_append, List.cons_append, collect_cons2, if_neg hpos, hr, Outcome.bind_ok, h1]
      rw [List.cons_append] at h4
      rw [h4]
      rfl
    · rw [List.zip_cons_cons, List.map_cons, List.map_cons, hr, h6]
    · have := h7.along
      rw [List.append_assoc] at this
      rw [List.flatMap_cons]
      refine this.weaken ?_
      rintro a ((ha | ⟨ha1, ha2, ha3⟩) | ⟨ha1, ha2, ha3⟩)
      · exact .inl ha
      · exact .inr ⟨ha1, ha2, by rw [List.dropLast_cons_of_ne_nil (by simp), List.map_cons, ha3]; exact List.mem_cons_self⟩
      · exact .inr ⟨ha1, ha2, by rw [List.dropLast_cons_of_ne_nil (by simp), List.map_cons]; exact List.mem_cons_of_mem _ ha3⟩
    · have := h7.empty
      rw [List.append_assoc] at this
      rw [List.flatMap_cons]
      exact this

/-- **C82, joints are removed.**  With joins, where two routes follow each other (at the begin or after something was skipped),
the point between them is not an end of its nearest segment, and the way does not turn back there, that point is left out:
the line goes on straight to the next point.  (A second route without length is not kept.) -/
theorem joint_removed {s : Setting P R A} (hj : s.joins = true) {a b c : Entry} (rest : List Entry) {done : List (Route P)}
    {sk : Bool} (hd : done = [] ∨ sk = true) (hab : a.1 ≠ b.1) (hbc : b.1 ≠ c.1) {r1 r2 : Route P} (h1 : s.leg a b = .ok r1)
    (h2 : s.leg b c = .ok r2) (v1 : r1.invalid = false) (v2 : r2.invalid = false) {ls ls' : List (List P)} {pre post : List P}
    {x y w : P} (l1 : r1.lines = ls ++ [pre ++ [x, y]]) (l2 : r2.lines = (y :: w :: post) :: ls') (hxy : x ≠ y)
    (hn : ¬ AtEnd s.nearest y) (ht : s.turn (s.G.dir (s.G.az x y) (s.G.az y w)) = false) :
    ∃ (cur : List (Route P)) (sk' : Bool), collect s (a :: b :: c :: rest) done sk = collect s (c :: rest) (done ++ cur) sk' ∧
      (cur.flatMap Route.lines = ls ++ [pre ++ [x, w]] ++ ((if post = [] then [] else [w :: post]) ++ ls') ∨
        (∀ l ∈ (if post = [] then [] else [w :: post]) ++ ls', ∀ sg ∈ segs l, sg.1 = sg.2) ∧
          cur.flatMap Route.lines = ls ++ [pre ++ [x, w]]) := by
  have hs1 : step s done sk r1 = (done ++ [r1], false) := by
    have hjs : joinStep s done sk r1 = (done, r1) := by
      unfold joinStep
      rcases hd with rfl | rfl
      · rfl
      · cases done.getLast? with
        | none => rfl
        | some prev => simp
    have hk : kept s r1 = true := by
      rw [kept, v1]
      exact (routeLength_isSome s.G _).2 ⟨pre ++ [x, y], by rw [l1]; simp, (x, y), by rw [segs_snoc]; simp, hxy⟩
    unfold step
    rw [hjs, if_pos hk]
  have hfree : freeEnd s r1 = true := by
    unfold freeEnd
    have hl2 : r1.refs.getLast?.bind (fun r => r.line.getLast?) = some y := by
      have h3 : r1.lines.getLast? = some (pre ++ [x, y]) := by rw [l1]; simp
      rw [Route.lines, List.getLast?_map] at h3
      obtain ⟨ra, hra, hra2⟩ := Option.map_eq_some_iff.1 h3
      rw [hra, Option.bind_some, hra2]
      simp
    rw [hl2]
    simpa using (atEnd_iff _ _).2 hn
  have hne : r2.refs.isEmpty = false := by
    cases hr : r2.refs with
    | nil => rw [Route.lines, hr] at l2; simp at l2
    | cons _ _ => rfl
  obtain ⟨j1, j2, j3, j4⟩ := join_cases s.G s.turn true (unused s [r1, r2]) r1 r2 pre post x y y w (by rw [l1]; simp)
    (by rw [l2]; rfl) v1 v2 (by rintro ⟨_, _, _, h⟩; rw [ht] at h; simp at h)
  rw [l1, List.dropLast_concat] at j1
  rw [l2, List.tail_cons] at j2
  have hjs2 : joinStep s (done ++ [r1]) false r2 = (done ++ [(join s.G s.turn true (unused s [r1, r2]) r1 r2).1],
      (join s.G s.turn true (unused s [r1, r2]) r1 r2).2) := by
    unfold joinStep
    rw [List.getLast?_concat]
    simp [hj, v1, v2, hne, hfree]
  rw [collect_cons2, if_neg hab, h1, Outcome.bind_ok, hs1, collect_cons2, if_neg hbc, h2, Outcome.bind_ok]
  unfold step
  rw [hjs2]
  by_cases hk : kept s (join s.G s.turn true (unused s [r1, r2]) r1 r2).2 = true
  · rw [if_pos hk]
    refine ⟨[(join s.G s.turn true (unused s [r1, r2]) r1 r2).1, (join s.G s.turn true (unused s [r1, r2]) r1 r2).2], false,
      by simp, .inl ?_⟩
    simp [j1, j2]
  · rw [if_neg hk]
    refine ⟨[(join s.G s.turn true (unused s [r1, r2]) r1 r2).1], false, rfl, .inr ⟨?_, by simp [j1]⟩⟩
    intro l hl sg hsg
    by_contra hc
    apply hk
    rw [kept, j4]
    exact (routeLength_isSome s.G _).2 ⟨l, by rw [j2]; exact hl, sg, hsg, hc⟩

/-! ### The policy as a whole -/

/-- A policy in runs of consecutive choices; the flag tells whether the last entry of the run is repeated, which marks that
something was skipped behind it. -/
def policyOf : List (List Entry × Bool) → List Entry
  | [] => []
  | (run, rep) :: rest => run ++ (if rep then run.getLast?.toList else []) ++ policyOf rest

/-- Candidates of a run follow each other on the network.  Between runs something was skipped; without joins, there may also
be a pair without route. -/
inductive Runs (s : Setting P R A) (net : Ref P → Prop) (Road : P → P → Prop) : List (List Entry × Bool) → Prop
  | nil : Runs s net Road []
  | cons (e : Entry) (es : List Entry) (rep : Bool) (rest : List (List Entry × Bool))
      (hl : (e :: es).IsChain (Linked s net)) (hr : (e :: es).IsChain (OnRoad s Road))
      (hsep : rep = true ∨ rest = [] ∨ (s.joins = false ∧ ∃ (f : Entry) (b : Route P), (policyOf rest).head? = some f ∧
        ((e :: es).getLast (by simp)).1 ≠ f.1 ∧ s.leg ((e :: es).getLast (by simp)) f = .ok b ∧ b.invalid = true))
      (h : Runs s net Road rest) : Runs s net Road ((e :: es, rep) :: rest)

/-- What is wanted of the lines of a run: they lead from the first to the last projection point along the routes between
consecutive candidates; cut may be projection points of the run that are not ends of their nearest segment. -/
def Follows (s : Setting P R A) (Road : P → P → Prop) (len : P → P → M) (run : List Entry) (ls : List (List P)) : Prop :=
  ∃ (legs : List (Route P)) (p q : P), (run.zip run.tail).map (fun t => s.leg t.1 t.2) = legs.map Outcome.ok ∧
    run.head?.map (fun i => (s.cand i).proj) = some p ∧ run.getLast?.map (fun i => (s.cand i).proj) = some q ∧
    Along Road len (fun a => s.joins = true ∧ ¬ AtEnd s.nearest a ∧ a ∈ run.dropLast.map (fun i => (s.cand i).proj))
      (legs.flatMap Route.lines) ls p q

theorem Along.congr {Road : P → P → Prop} {len : P → P → M} {cut cut' : P → Prop} {all ls : List (List P)} {p q : P}
    (h : Along Road len cut all ls p q) (hc : ∀ x, cut x ↔ cut' x) : Along Road len cut' all ls p q :=
  h.weaken (fun x hx => (hc x).1 hx)

theorem collect_runs {s : Setting P R A} {net : Ref P → Prop} {Road : P → P → Prop} {len : P → P → M}
    (hstr : s.joins = true → Straight s Road len) {runs : List (List Entry × Bool)} (h : Runs s net Road runs) :
    ∀ (done : List (Route P)) (sk : Bool), (done = [] ∨ sk = true ∨ s.joins = false) →
    ∃ parts : List (List (Route P)), collect s (policyOf runs) done sk = .ok (done ++ parts.flatten) ∧
      List.Forall₂ (fun run rs => (∀ r ∈ rs, r.invalid = false ∧ ∃ n, Good net n r) ∧
        Follows s Road len run.1 (rs.flatMap Route.lines) ∧
        ((∃ t ∈ run.1.zip run.1.tail, (s.cand t.1).proj ≠ (s.cand t.2).proj) → rs ≠ [])) runs parts := by
  induction h with
  | nil =>
    intro done sk _
    refine ⟨[], ?_, .nil⟩
    rw [policyOf, collect]
    · simp
    · simp
  | cons e es rep rest hl hr hsep _ ih =>
    intro done sk hst
    have hstart : Part net Road len (fun _ => False) [] [] (s.cand e).proj (s.cand e).proj :=
      ⟨by simp, Along.start Road len _ _, by simp⟩
    obtain ⟨legs, cur', sk', h1, h2, h3, h4⟩ := collect_run (net := net) (len := len) hstr done
      ((if rep then (e :: es).getLast?.toList else []) ++ policyOf rest) (s.cand e).proj es e [] sk (fun _ => False) []
      (fun _ => hst) hl hr hstart
    have hfol : Follows s Road len (e :: es) (cur'.flatMap Route.lines) := by
      refine ⟨legs, (s.cand e).proj, (s.cand ((e :: es).getLast (by simp))).proj, h3, rfl, ?_, ?_⟩
      · rw [List.getLast?_eq_getLast_of_ne_nil (by simp)]; rfl
      · have := h4.along
        rw [List.nil_append] at this
        exact this.congr (fun x => by simp)
    have hmove : (∃ t ∈ (e :: es).zip es, (s.cand t.1).proj ≠ (s.cand t.2).proj) → cur' ≠ [] := by
      rintro ⟨t, ht, hne⟩ hc
      have hall := h4.empty hc
      rw [List.nil_append] at hall
      have hlt : Linked s net t.1 t.2 := by
        have : ∀ (es : List Entry) (e : Entry), (e :: es).IsChain (Linked s net) → ∀ t ∈ (e :: es).zip es, Linked s net t.1 t.2 := by
          intro es
          induction es with
          | nil => intro e _ t ht; simp at ht
          | cons f es ih =>
            intro e hch t ht
            rw [List.isChain_cons_cons] at hch
            rw [List.zip_cons_cons] at ht
            rcases List.mem_cons.1 ht with rfl | ht
            · exact hch.1
            · exact ih f hch.2 t ht
        exact this es e hl t ht
      obtain ⟨_, r, hr1, hr2⟩ := hlt.leg
      have hmem : r ∈ legs := by
        have : Outcome.ok r ∈ legs.map Outcome.ok := by
          rw [← h3]
          exact List.mem_map.2 ⟨t, ht, hr1⟩
        obtain ⟨r', hr', he⟩ := List.mem_map.1 this
        rw [← Outcome.ok.inj he]
        exact hr'
      have hconst : ∀ l ∈ r.lines, ∀ sg ∈ segs l, sg.1 = sg.2 := fun l hl => hall l (List.mem_flatMap.2 ⟨r, hmem, hl⟩)
      rcases hr2.leads with ⟨_, h5⟩ | ⟨h5, h6⟩
      · exact hne h5
      · exact hne (constant_all hr2.connected hconst h6 _ (List.mem_of_mem_head? h5))
    have hgo : ∃ sk2, collect s ((e :: es).getLast (by simp) :: ((if rep then (e :: es).getLast?.toList else []) ++ policyOf rest))
        (done ++ cur') sk' = collect s (policyOf rest) (done ++ cur') sk2 ∧ ((done ++ cur') = [] ∨ sk2 = true ∨ s.joins = false) := by
      by_cases hrep : rep = true
      · refine ⟨true, ?_, .inr (.inl rfl)⟩
        rw [hrep, List.getLast?_eq_getLast_of_ne_nil (by simp)]
        simp only [if_true, Option.toList_some, List.singleton_append]
        rw [collect_cons2, if_pos rfl]
      · rw [if_neg hrep, List.nil_append]
        rcases hsep with h5 | h5 | ⟨hj, f, b, hf, hfe, hb, hbi⟩
        · exact absurd h5 hrep
        · subst h5
          refine ⟨true, ?_, .inr (.inl rfl)⟩
          rw [policyOf, collect, collect] <;> simp
        · refine ⟨sk', ?_, .inr (.inr hj)⟩
          obtain ⟨tl, htl⟩ : ∃ tl, policyOf rest = f :: tl := ⟨_, List.eq_cons_of_mem_head? hf⟩
          rw [htl, collect_cons2, if_neg hfe, hb, Outcome.bind_ok]
          have hjs : joinStep s (done ++ cur') sk' b = (done ++ cur', b) := by
            unfold joinStep
            cases (done ++ cur').getLast? with
            | none => rfl
            | some prev => simp [hj]
          have hstep : step s (done ++ cur') sk' b = (done ++ cur', sk') := by
            unfold step
            rw [hjs, kept, hbi]
            simp
          rw [hstep]
    obtain ⟨sk2, h5, h6⟩ := hgo
    obtain ⟨parts, h7, h8⟩ := ih (done ++ cur') sk2 h6
    refine ⟨cur' :: parts, ?_, .cons ⟨h4.valid, hfol, hmove⟩ h8⟩
    rw [policyOf, List.append_assoc]
    rw [List.append_nil] at h1
    rw [h1, h5, h7, List.flatten_cons, List.append_assoc]

theorem Follows.drop {s : Setting P R A} {Road : P → P → Prop} {len : P → P → M} {run : List Entry} {ls ls' : List (List P)}
    (h : Follows s Road len run ls) (hd : Drop ls ls') : Follows s Road len run ls' := by
  obtain ⟨legs, p, q, h1, h2, h3, h4⟩ := h
  exact ⟨legs, p, q, h1, h2, h3, h4.drop hd⟩

/-- **C82, the policy as a whole.**  Let the candidates of each run be linked by the network (`Linked`), runs be separated
by skips or, without joins, by pairs without route, and, where joints are removed, let a point that is not an end of the
nearest segment be inside a straight piece of road.  Then the lines of the match are, run by run, lines from the first to the
last projection point along the routes between consecutive candidates: connected, in order, of the same length, with no
segment off the road, and without other cuts than joints on straight pieces (`Follows`, `Along`).  Everything referred to is
alive.  The match is valid as soon as some route has to go somewhere.
Missing: pairs without route while joints are removed (`broken_bridged_fails`). -/
theorem match_follows_partial {s : Setting P R A} {net : Ref P → Prop} {Road : P → P → Prop} {len : P → P → M}
    (hstr : s.joins = true → Straight s Road len) {runs : List (List Entry × Bool)} (h : Runs s net Road runs) :
    ∃ r parts, candidatesRoute s (policyOf runs) = .ok r ∧ (∀ x ∈ r.refs, x ∈ r.own ∨ net x) ∧ r.lines = parts.flatten ∧
      List.Forall₂ (fun run ls => Follows s Road len run.1 ls) runs parts ∧
      ((∃ run ∈ runs, ∃ t ∈ run.1.zip run.1.tail, (s.cand t.1).proj ≠ (s.cand t.2).proj) → r.invalid = false) := by
  obtain ⟨parts, h1, h2⟩ := collect_runs hstr h [] false (.inl rfl)
  rw [List.nil_append] at h1
  have hall : ∀ r ∈ parts.flatten, r.invalid = false ∧ ∃ n, Good net n r := by
    clear h1
    induction h2 with
    | nil => simp
    | cons h3 _ ih =>
      intro r hr
      rw [List.flatten_cons, List.mem_append] at hr
      cases h with
      | cons _ _ _ _ _ _ _ h =>
        rcases hr with hr | hr
        · exact h3.1 r hr
        · exact ih h r hr
  have hfol : List.Forall₂ (fun run ls => Follows s Road len run.1 ls) runs
      (parts.map (fun rs => (rs.filter Route.mergeable).flatMap Route.lines)) := by
    clear h1 hall h
    induction h2 with
    | nil => exact .nil
    | cons h3 _ ih =>
      exact .cons (h3.2.1.drop (drop_usable _ (fun r hr => (h3.1 r hr).1))) ih
  have hflat : (parts.map (fun rs => (rs.filter Route.mergeable).flatMap Route.lines)).flatten =
      (parts.flatten.filter Route.mergeable).flatMap Route.lines := by
    clear h1 hall hfol h2
    induction parts with
    | nil => rfl
    | cons rs parts ih =>
      rw [List.map_cons, List.flatten_cons, List.flatten_cons, List.filter_append, List.flatMap_append, ih]
  have hgo : (∃ run ∈ runs, ∃ t ∈ run.1.zip run.1.tail, (s.cand t.1).proj ≠ (s.cand t.2).proj) → parts.flatten ≠ [] := by
    clear h1 hall hfol hflat h
    induction h2 with
    | nil => simp
    | cons h3 _ ih =>
      rintro ⟨run, hrun, t, ht, hne⟩
      rw [List.flatten_cons]
      rcases List.mem_cons.1 hrun with rfl | hrun
      · have := h3.2.2 ⟨t, ht, hne⟩
        simp [this]
      · have := ih ⟨run, hrun, t, ht, hne⟩
        intro hc
        exact this (List.append_eq_nil_iff.1 hc).2
  rw [candidatesRoute, h1, Outcome.bind_ok]
  by_cases hne : parts.flatten = []
  · refine ⟨Route.bad, _, ?_, by simp [Route.bad], ?_, hfol, fun hm => absurd hne (hgo hm)⟩
    · rw [hne]
      exact merge_invalid false false _ (by simp)
    · rw [hflat, hne]
      rfl
  · obtain ⟨r0, hr0⟩ := List.exists_mem_of_ne_nil _ hne
    obtain ⟨r, n, h3, h4, h5, h6⟩ := merge_lines (ext := net) (next := unused s parts.flatten) (rs := parts.flatten)
      (fun r hr => by obtain ⟨_, n, hn⟩ := hall r hr; exact hn.top (tops hr)) ⟨r0, hr0, (hall r0 hr0).1⟩
    exact ⟨r, _, h3, h4.alive, h6.trans hflat.symm, hfol, fun _ => h5⟩

/-- **C82, one run.**  Without skips and with every consecutive pair linked, not all at the same point, the match is valid and
connected; it leads from the projection point of the first to that of the last candidate, and through all others, except
that joints inside straight pieces of road are left out.  Without joins its points are those of the routes between the
candidates, up to repetitions.  Its length is the sum of theirs (exact arithmetic). -/
theorem continuous_partial [AddCommMonoid R] {s : Setting P R A} {net : Ref P → Prop} {Road : P → P → Prop}
    (hG : Adds s.G) (hstr : s.joins = true → Straight s Road s.G.len) {e : Entry} {es : List Entry}
    (hl : (e :: es).IsChain (Linked s net)) (hr : (e :: es).IsChain (OnRoad s Road))
    (hm : (s.cand e).proj ≠ (s.cand ((e :: es).getLast (by simp))).proj) :
    ∃ (r : Route P) (pts : List P) (legs : List (Route P)), candidatesRoute s (e :: es) = .ok r ∧
      ((e :: es).zip es).map (fun t => s.leg t.1 t.2) = legs.map Outcome.ok ∧
      r.invalid = false ∧ r.isConnected = true ∧ (∀ x ∈ r.refs, x ∈ r.own ∨ net x) ∧ r.richLine = .ok pts ∧
      pts.head? = some (s.cand e).proj ∧ pts.getLast? = some (s.cand ((e :: es).getLast (by simp))).proj ∧
      (squash pts).Sublist (legs.flatMap Route.lines).flatten ∧
      (∀ x ∈ (legs.flatMap Route.lines).flatten, x ∉ pts → s.joins = true ∧ ¬ AtEnd s.nearest x ∧
        x ∈ es.dropLast.map (fun i => (s.cand i).proj)) ∧
      (s.joins = false → squash pts = squash (legs.flatMap Route.lines).flatten) ∧
      (∀ l ∈ r.lines, ∀ sg ∈ segs l, sg.1 ≠ sg.2 → Road sg.1 sg.2) ∧
      (routeLength s.G r.lines).getD 0 = (legs.map (fun x => (routeLength s.G x.lines).getD 0)).sum := by
  have hruns : Runs s net Road [(e :: es, false)] := .cons e es false [] hl hr (.inr (.inl rfl)) .nil
  obtain ⟨r, parts, h1, h2, h3, h4, _⟩ := match_follows_partial (len := s.G.len) hstr hruns
  have hpol : policyOf [(e :: es, false)] = e :: es := by simp [policyOf]
  rw [hpol] at h1
  cases h4 with
  | cons h5 h6 =>
    cases h6
    rename_i ls
    rw [List.flatten_cons, List.flatten_nil, List.append_nil] at h3
    obtain ⟨legs, p, q, h7, h8, h9, h10⟩ := h5
    simp only [List.head?_cons, Option.map_some, Option.some.injEq] at h8
    rw [List.getLast?_eq_getLast_of_ne_nil (by simp)] at h9
    simp only [Option.map_some, Option.some.injEq] at h9
    rw [← h3] at h10
    subst h8 h9
    have hlead : r.lines.flatten.head? = some (s.cand e).proj ∧
        r.lines.flatten.getLast? = some (s.cand ((e :: es).getLast (by simp))).proj := by
      rcases h10.leads with ⟨_, h11⟩ | h11
      · exact absurd h11 hm
      · exact h11
    have hpts := richLine_connected h10.connected
    have hsq := squash_flatten h10.connected
    have hmem : ∀ x, x ∈ joined (nonempty r.lines) ↔ x ∈ r.lines.flatten := by
      intro x
      rw [← mem_squash, ← hsq, mem_squash]
    have hv : r.invalid = false := by
      by_contra hi
      rw [Bool.not_eq_false] at hi
      have : r.lines = [] := by
        rw [candidatesRoute] at h1
        cases hc : collect s (e :: es) [] false with
        | throws => rw [hc] at h1; simp at h1
        | ub => rw [hc] at h1; simp at h1
        | ok rs =>
          rw [hc, Outcome.bind_ok, Route.merge] at h1
          split_ifs at h1
          · rw [← Outcome.ok.inj h1]; rfl
          · cases hb : mergeLoop false false rs ⟨[], [], unused s rs⟩ with
            | throws => rw [hb] at h1; simp at h1
            | ub => rw [hb] at h1; simp at h1
            | ok acc =>
              rw [hb, Outcome.bind_ok, build] at h1
              split_ifs at h1
              rw [← Outcome.ok.inj h1] at hi
              simp at hi
      rw [this] at hlead
      simp at hlead
    refine ⟨r, _, legs, h1, h7, hv, connected_reported h10.connected, h2, hpts, ?_, ?_, ?_, ?_, ?_, h10.road, ?_⟩
    · rw [← squash_head?, ← hsq, squash_head?, hlead.1]
    · rw [← squash_getLast?, ← hsq, squash_getLast?, hlead.2]
    · rw [← hsq]; exact h10.sub
    · intro x hx hn
      rw [hmem] at hn
      rcases h10.complete x hx with h11 | ⟨h11, h12, h13⟩ | h11
      · exact absurd h11 hn
      · refine ⟨h11, h12, ?_⟩
        cases es with
        | nil => simp at h13
        | cons f es =>
          rw [List.dropLast_cons_of_ne_nil (by simp), List.map_cons, List.mem_cons] at h13
          rcases h13 with h13 | h13
          · exact absurd (h13 ▸ List.mem_of_mem_head? hlead.1) hn
          · exact h13
      · exact absurd (h11 ▸ List.mem_of_mem_getLast? hlead.2) hn
    · intro hj
      rw [← hsq]
      rcases h10.exact (by rintro x ⟨hx, _⟩; rw [hj] at hx; simp at hx) with h11 | ⟨h11, _⟩
      · exact h11
      · rw [h11] at hlead; simp at hlead
    · rw [routeLength_sum hG, h10.length]
      clear h7 h10
      induction legs with
      | nil => rfl
      | cons x legs ih => rw [List.flatMap_cons, segmentSum_append, ih, List.map_cons, List.sum_cons, routeLength_sum hG]

/-! ### A road in two edges, from 0 over 10 to 20 -/

/-- Candidates at 2 and 5 on the first edge, 13 (twice), 15 and 18 on the second. -/
def roadCand (e : Entry) : Cand Int :=
  let e2 : Int → Cand Int := fun x => ⟨1, ⟨2 * e.1, [10, x]⟩, ⟨2 * e.1 + 1, [x, 20]⟩, x⟩
  match e.1 with
  | 0 => ⟨0, ⟨0, [0, 2]⟩, ⟨1, [2, 10]⟩, 2⟩
  | 1 => ⟨0, ⟨2, [0, 5]⟩, ⟨3, [5, 10]⟩, 5⟩
  | 2 => e2 13
  | 3 => e2 13
  | 5 => e2 15
  | _ => e2 18

def roadSetting (joins : Bool) : Setting Int Int Int where
  G := roadGeo
  interp := fun _ d => d
  turn := fun d => d == 180
  edgeLine := fun e => if e = 0 then [0, 10] else [10, 20]
  within := false
  joins := joins
  nearest := fun p => some (if p ≤ 10 then (0, 10) else (10, 20))
  free := 200
  cand := roadCand
  path := fun _ _ => Route.ofRefs []

def roadNet (x : Ref Int) : Prop := x.addr < 200

instance : DecidablePred roadNet := fun x => inferInstanceAs (Decidable (x.addr < 200))

/-- Travel is only forwards. -/
def roadAhead (x y : Int) : Prop := x < y

instance : DecidableRel roadAhead := fun x y => inferInstanceAs (Decidable (x < y))

theorem road_straight : Straight (roadSetting true) roadAhead roadGeo.len := by
  intro x y w _ hxy hyw ht h1 h2
  refine ⟨fun _ => Int.lt_trans h1 h2, ?_⟩
  simp only [roadAhead] at h1 h2
  simp only [roadSetting, roadGeo, span] at ht ⊢
  split_ifs <;> omega

/-- Whether the route between two candidates is on the road. -/
def roadCheck (s : Setting Int Int Int) (p q : Entry) : Bool :=
  match s.leg p q with
  | .ok r => r.lines.all fun l => (segs l).all fun sg => decide (sg.1 ≠ sg.2 → roadAhead sg.1 sg.2)
  | _ => true

theorem roadCheck_onRoad {s : Setting Int Int Int} {p q : Entry} (h : roadCheck s p q = true) : OnRoad s roadAhead p q := by
  intro r hr l hl sg hsg
  rw [roadCheck, hr] at h
  simp only [List.all_eq_true, decide_eq_true_eq] at h
  exact h l hl sg hsg

theorem road_edge (joins : Bool) : Linked (roadSetting joins) roadNet (0, 0) (1, 0) := by
  refine .edge 2 5 8 10 ?_ ?_ rfl ?_ ?_ ?_ ?_ ?_ ?_ ?_ ?_ ?_ ?_ ⟨(10, 10), ?_, ?_⟩ <;> cases joins <;> decide +kernel

theorem road_over (joins : Bool) : Linked (roadSetting joins) roadNet (1, 0) (2, 0) := by
  refine .over [] 10 10 ?_ rfl (by simp) List.isChain_nil (.inl ⟨rfl, rfl⟩) ⟨?_, ?_⟩ ⟨?_, ?_⟩ (.inr ⟨?_, ?_⟩) (.inr ⟨?_, ?_⟩) ?_ ?_
    (.inl rfl) <;> cases joins <;> decide +kernel

theorem road_edge2 (joins : Bool) : Linked (roadSetting joins) roadNet (5, 0) (6, 0) := by
  refine .edge 5 8 5 10 ?_ ?_ rfl ?_ ?_ ?_ ?_ ?_ ?_ ?_ ?_ ?_ ?_ ⟨(20, 10), ?_, ?_⟩ <;> cases joins <;> decide +kernel

theorem road_on (joins : Bool) : roadCheck (roadSetting joins) (0, 0) (1, 0) = true ∧
    roadCheck (roadSetting joins) (1, 0) (2, 0) = true ∧ roadCheck (roadSetting joins) (2, 0) (3, 0) = true ∧
    roadCheck (roadSetting joins) (5, 0) (6, 0) = true := by
  cases joins <;> decide +kernel

/-- Two runs with a skip in between, with and without joins. -/
theorem road_runs (joins : Bool) : Runs (roadSetting joins) roadNet roadAhead
    [([(0, 0), (1, 0), (2, 0), (3, 0)], true), ([(5, 0), (6, 0)], false)] := by
  obtain ⟨h1, h2, h3, h4⟩ := road_on joins
  refine .cons (0, 0) [(1, 0), (2, 0), (3, 0)] true _
    (.cons_cons (road_edge joins) (.cons_cons (road_over joins) (.cons_cons (.same ?_ ?_) (.singleton _))))
    (.cons_cons (roadCheck_onRoad h1) (.cons_cons (roadCheck_onRoad h2) (.cons_cons (roadCheck_onRoad h3) (.singleton _)))) (.inl rfl)
    (.cons (5, 0) [(6, 0)] false [] (.cons_cons (road_edge2 joins) (.singleton _))
      (.cons_cons (roadCheck_onRoad h4) (.singleton _)) (.inr (.inl rfl)) .nil) <;> cases joins <;> decide +kernel

/-- The hypotheses of `match_follows_partial` hold of it; the joint at 5 is removed, the end 10 of the first edge is not, and
nothing leads from 13 to 15. -/
example : (∃ r parts, candidatesRoute (roadSetting true) (policyOf [([(0, 0), (1, 0), (2, 0), (3, 0)], true), ([(5, 0), (6, 0)], false)]) =
      .ok r ∧ (∀ x ∈ r.refs, x ∈ r.own ∨ roadNet x) ∧ r.lines = parts.flatten ∧
      List.Forall₂ (fun run ls => Follows (roadSetting true) roadAhead roadGeo.len run.1 ls)
        [([(0, 0), (1, 0), (2, 0), (3, 0)], true), ([(5, 0), (6, 0)], false)] parts) ∧
    (candidatesRoute (roadSetting true) [(0, 0), (1, 0), (2, 0), (3, 0), (3, 0), (5, 0), (6, 0)]).map Route.lines =
      .ok [[2, 10], [10, 13], [15, 18]] ∧
    (candidatesRoute (roadSetting false) [(0, 0), (1, 0), (2, 0), (3, 0), (3, 0), (5, 0), (6, 0)]).map Route.lines =
      .ok [[2, 5], [5, 10], [10, 13], [15, 18]] := by
  obtain ⟨r, parts, h1, h2, h3, h4, _⟩ := match_follows_partial (len := roadGeo.len) (fun _ => road_straight) (road_runs true)
  exact ⟨⟨r, parts, h1, h2, h3, h4⟩, by decide +kernel, by decide +kernel⟩

/-- The hypotheses of `joint_removed` hold of the begin: the joint at 5 is left out. -/
example : ∃ (cur : List (Route Int)) (sk' : Bool), collect (roadSetting true) [(0, 0), (1, 0), (2, 0)] [] false =
    collect (roadSetting true) [(2, 0)] ([] ++ cur) sk' ∧ (cur.flatMap Route.lines = [[2, 10], [10, 13]] ∨
      (∀ l ∈ [[(10 : Int), 13]], ∀ sg ∈ segs l, sg.1 = sg.2) ∧ cur.flatMap Route.lines = [[2, 10]]) :=
  joint_removed (r1 := Route.ofOwn [⟨200, [2, 5]⟩]) (r2 := Route.ofRefs [⟨3, [5, 10]⟩, ⟨4, [10, 13]⟩]) (ls := []) (pre := []) (x := 2)
    (y := 5) (w := 10) (post := []) (ls' := [[10, 13]]) rfl [] (.inl rfl) (by decide) (by decide) (by decide +kernel)
    (by decide +kernel) rfl rfl rfl rfl (by decide) (by rw [← atEnd_iff]; decide) (by decide)

/-- The hypotheses of `continuous_partial` hold of the first run. -/
example : ∃ (r : Route Int) (pts : List Int), candidatesRoute (roadSetting true) [(0, 0), (1, 0), (2, 0), (3, 0)] = .ok r ∧
    r.invalid = false ∧ r.isConnected = true ∧ r.richLine = .ok pts ∧ pts.head? = some 2 ∧ pts.getLast? = some 13 := by
  obtain ⟨h1, h2, h3, h4⟩ := road_on true
  obtain ⟨r, pts, legs, h5, _, h6, h7, _, h8, h9, h10, _⟩ := continuous_partial (s := roadSetting true) (net := roadNet)
    (Road := roadAhead) (e := (0, 0)) (es := [(1, 0), (2, 0), (3, 0)]) ⟨rfl, rfl⟩ (fun _ => road_straight)
    (.cons_cons (road_edge true) (.cons_cons (road_over true) (.cons_cons (.same (by decide) (by decide)) (.singleton _))))
    (.cons_cons (roadCheck_onRoad h1) (.cons_cons (roadCheck_onRoad h2) (.cons_cons (roadCheck_onRoad h3) (.singleton _))))
    (by decide)
  exact ⟨r, pts, h5, h6, h7, h8, h9, h10⟩

/-! ### Nothing moves -/

theorem leg_standing {s : Setting P R A} {p q : Entry} (h : (s.cand p).proj = (s.cand q).proj) :
    s.leg p q = .ok (Route.ofRefs []) :=
  (candidate_route_none s.G s.interp s.turn s.edgeLine s.within s.free _ _ _).1 h

/-- **C82, standing.**  If consecutive entries are of the same measurement or at the same point, whatever is skipped, the match
is invalid: nothing is reported, not even the point. -/
theorem standing (s : Setting P R A) (policy : List Entry)
    (h : policy.IsChain (fun p q => p.1 = q.1 ∨ (s.cand p).proj = (s.cand q).proj)) :
    candidatesRoute s policy = .ok Route.bad := by
  have hc : ∀ (n : Nat) (l : List Entry) (sk : Bool), l.length ≤ n →
      l.IsChain (fun p q => p.1 = q.1 ∨ (s.cand p).proj = (s.cand q).proj) → collect s l [] sk = .ok [] := by
    intro n
    induction n with
    | zero =>
      intro l sk hn _
      have : l = [] := List.length_eq_zero_iff.1 (by omega)
      rw [this, collect]; simp
    | succ n ih =>
      intro l sk hn hl
      match l, hn, hl with
      | [], _, _ => rw [collect]; simp
      | [p], _, _ => rw [collect]; simp
      | p :: q :: rest, hn, hl =>
        rw [List.isChain_cons_cons] at hl
        rw [collect_cons2]
        simp only [List.length_cons] at hn
        by_cases hp : p.1 = q.1
        · rw [if_pos hp]
          refine ih rest true (by omega) ?_
          cases rest with
          | nil => exact .nil
          | cons x rest => exact (List.isChain_cons_cons.1 hl.2).2
        · rw [if_neg hp, leg_standing (hl.1.resolve_left hp), Outcome.bind_ok]
          have hs : step s [] sk (Route.ofRefs []) = ([], sk) := by
            unfold step joinStep kept
            simp [Route.ofRefs, Route.lines, routeLength]
          rw [hs]
          exact ih (q :: rest) sk (by simp only [List.length_cons]; omega) hl.2
  rw [candidatesRoute, hc policy.length policy false (Nat.le_refl _) h, Outcome.bind_ok]
  exact merge_invalid false false _ (by simp)

/-- **C82, standing.**  A track with several measurements, all with a candidate on the road at the same point, has no match. -/
theorem standing_fails : ∃ (s : Setting Int Int Int) (policy : List Entry), policy.length = 2 ∧ (policy.map Prod.fst).Nodup ∧
    (∀ e ∈ policy, (s.cand e).proj ∈ [(13 : Int)]) ∧ candidatesRoute s policy = .ok Route.bad :=
  ⟨roadSetting true, [(2, 0), (3, 0)], rfl, by decide, by decide,
    standing _ _ (.cons_cons (.inr (by decide)) (.singleton _))⟩

/-! ### Several tracks -/

/-- **C82, several tracks.**  If some track has a match, the match of all is valid and its lines are those of the tracks'
matches in order, except that tracks without any non-empty line add nothing. -/
theorem match_tracks {net : Ref P → Prop} (next : Nat) {routes : List (Route P)} (hg : ∀ r ∈ routes, ∃ n, Good net n r)
    (hv : ∃ r ∈ routes, r.invalid = false) :
    ∃ r, matchRoute next routes = .ok r ∧ r.invalid = false ∧ (∀ x ∈ r.refs, x ∈ r.own ∨ net x) ∧
      r.lines = (routes.filter Route.mergeable).flatMap Route.lines := by
  obtain ⟨r, n, h1, h2, h3, h4⟩ := merge_lines (ext := net) (next := routes.foldr (fun r n => max r.top n) next) (rs := routes)
    (fun r hr => by obtain ⟨n, hn⟩ := hg r hr; exact hn.top (tops hr)) hv
  exact ⟨r, h1, h3, h2.alive, h4⟩

example : (matchRoute 200 [Route.ofRefs [⟨0, [0, 4]⟩], Route.bad, Route.ofOwn [⟨200, [(7 : Int), 9]⟩]]).map Route.lines =
    .ok [[0, 4], [7, 9]] := by decide +kernel

/-! ### What goes wrong -/

/-- Two roads, 0 to 10 and 100 to 110, without a path from the first to the second. -/
def gapSetting (joins : Bool) : Setting Int Int Int where
  G := roadGeo
  interp := fun _ d => d
  turn := fun d => d == 180
  edgeLine := fun e => if e = 0 then [0, 10] else [100, 110]
  within := false
  joins := joins
  nearest := fun p => some (if p ≤ 10 then (0, 10) else (100, 110))
  free := 200
  cand := fun e => match e.1 with
    | 0 => ⟨0, ⟨0, [0, 2]⟩, ⟨1, [2, 10]⟩, 2⟩
    | 1 => ⟨0, ⟨2, [0, 5]⟩, ⟨3, [5, 10]⟩, 5⟩
    | 2 => ⟨1, ⟨4, [100, 103]⟩, ⟨5, [103, 110]⟩, 103⟩
    | _ => ⟨1, ⟨6, [100, 107]⟩, ⟨7, [107, 110]⟩, 107⟩
  path := fun _ _ => Route.bad

/-- **C82, gaps are bridged.**  Between the second and the third candidate there is no route.  With joins the two parts of the
match are nevertheless joined: the match is reported as connected and leads from 2 straight to 107, over a road that does not
exist, and without the projection points at the gap.  Without joins the parts stay apart. -/
theorem broken_bridged_fails : (gapSetting true).leg (1, 0) (2, 0) = .ok Route.bad ∧
    (∃ r, candidatesRoute (gapSetting true) [(0, 0), (1, 0), (2, 0), (3, 0)] = .ok r ∧ r.lines.flatten = [2, 107] ∧
      r.isConnected = true) ∧
    (candidatesRoute (gapSetting false) [(0, 0), (1, 0), (2, 0), (3, 0)]).map Route.lines = .ok [[2, 5], [103, 107]] := by
  refine ⟨by decide +kernel, ?_, by decide +kernel⟩
  cases hc : candidatesRoute (gapSetting true) [(0, 0), (1, 0), (2, 0), (3, 0)] with
  | ok r =>
    have : (candidatesRoute (gapSetting true) [(0, 0), (1, 0), (2, 0), (3, 0)]).map (fun r => (r.lines.flatten, r.isConnected)) =
        .ok ([2, 107], true) := by decide +kernel
    rw [hc, Outcome.map_ok, Outcome.ok.injEq, Prod.mk.injEq] at this
    exact ⟨r, rfl, this.1, this.2⟩
  | throws => exact absurd hc (by decide +kernel)
  | ub => exact absurd hc (by decide +kernel)

/-- Streets on a grid; lengths and directions along the axes. -/
def gridGeo : Geo (Int × Int) Int Int where
  zeroR := 0
  addR := (· + ·)
  zeroA := 0
  addA := (· + ·)
  abs := fun a => if a < 0 then -a else a
  len := fun a b => ((a.1 - b.1).natAbs : Int) + (a.2 - b.2).natAbs
  az := fun a b => if a.1 < b.1 then 90 else if b.1 < a.1 then 270 else if a.2 < b.2 then 0 else 180
  dir := fun a b => if a = b then 0 else if a - b = 180 ∨ b - a = 180 then 180 else 90

/-- A street from (0, 0) over the corner (4, 0) to (4, 4), and another from (3, -1) to (5, 1), which passes through the corner
and is the nearest segment found there. -/
def cornerSetting : Setting (Int × Int) Int Int where
  G := gridGeo
  interp := fun _ d => (d, 0)
  turn := fun d => d == 180
  edgeLine := fun _ => [(0, 0), (4, 0), (4, 4)]
  within := false
  joins := true
  nearest := fun p => some (if p = (4, 0) then ((3, -1), (5, 1)) else if p.2 = 0 then ((0, 0), (4, 0)) else ((4, 0), (4, 4)))
  free := 200
  cand := fun e => match e.1 with
    | 0 => ⟨0, ⟨0, [(0, 0), (2, 0)]⟩, ⟨1, [(2, 0), (4, 0), (4, 4)]⟩, (2, 0)⟩
    | 1 => ⟨0, ⟨2, [(0, 0), (4, 0)]⟩, ⟨3, [(4, 0), (4, 4)]⟩, (4, 0)⟩
    | _ => ⟨0, ⟨4, [(0, 0), (4, 0), (4, 3)]⟩, ⟨5, [(4, 3), (4, 4)]⟩, (4, 3)⟩
  path := fun _ _ => Route.bad

/-- **C82, corners are cut.**  Only one nearest segment is looked at to tell whether a joint is a point of the street.  Where
another street passes through the corner of a street, the corner is removed, and the match leads across the block.  (The
street itself ends a segment there, and no segment of a street leads from (2, 0) to (4, 3).) -/
theorem corner_cut_fails : (candidatesRoute cornerSetting [(0, 0), (1, 0), (2, 0)]).map Route.lines = .ok [[(2, 0), (4, 3)]] ∧
    (cornerSetting.leg (0, 0) (1, 0)).map Route.lines = .ok [[(2, 0), (4, 0)]] ∧
    (cornerSetting.leg (1, 0) (2, 0)).map Route.lines = .ok [[(4, 0), (4, 3)]] ∧
    (4, 0) ∈ cornerSetting.edgeLine 0 := by
  refine ⟨by decide +kernel, by decide +kernel, by decide +kernel, by decide +kernel⟩

end MM.MatchRoute
