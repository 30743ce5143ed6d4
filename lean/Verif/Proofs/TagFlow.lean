import Verif.Model.TagFlow
import Verif.Props.Tags
import Mathlib.Data.List.Forall2

/-!
# Tags on their way into the network: decoded tags are what was given

`Rep st ids ts`: the identifiers stand for the pairs, one by one.
-/

set_option autoImplicit false
set_option linter.unusedSectionVars false

namespace MM.TagFlow

open Tags (Inv Keeps Decodes)

/-- Identifiers stand for pairs. -/
def Rep (st : Tags.State) (ids : List Nat) (ts : List Pair) : Prop :=
  List.Forall₂ (fun n (t : Pair) => Decodes st n t.1 t.2) ids ts

theorem decodes_keeps {st st' : Tags.State} (h : Keeps st st') {n : Nat} {k v : String} (hd : Decodes st n k v) :
    Decodes st' n k v := by
  obtain ⟨p, hp, hk, hv⟩ := hd
  exact ⟨p, h.pair n p hp, h.key _ _ hk, h.value _ _ hv⟩

theorem Rep.keeps {st st' : Tags.State} (h : Keeps st st') {ids : List Nat} {ts : List Pair} (hr : Rep st ids ts) : Rep st' ids ts :=
  List.Forall₂.imp (fun _ _ hd => decodes_keeps h hd) hr

theorem decode_iff (st : Tags.State) (ids : List Nat) : ∀ ts, decode st ids = .ok ts ↔ Rep st ids ts := by
  induction ids with
  | nil =>
    intro ts
    simp only [decode, Outcome.ok.injEq, Rep, List.forall₂_nil_left_iff]
    exact ⟨fun h => h.symm, fun h => h.symm⟩
  | cons n ns ih =>
    intro ts
    constructor
    · intro h
      rw [decode] at h
      cases ht : Tags.tag st n with
      | ok t =>
        rw [ht] at h
        simp only [Outcome.bind_ok] at h
        cases hd : decode st ns with
        | ok us =>
          rw [hd] at h
          simp only [Outcome.map_ok, Outcome.ok.injEq] at h
          subst h
          exact List.Forall₂.cons (Tags.decodes_tag.2 ht) ((ih us).1 hd)
        | throws => rw [hd] at h; simp at h
        | ub => rw [hd] at h; simp at h
      | throws => rw [ht] at h; simp at h
      | ub => rw [ht] at h; simp at h
    · intro h
      cases h with
      | cons h1 h2 =>
        rw [decode, Tags.decodes_tag.1 h1]
        simp only [Outcome.bind_ok]
        rw [(ih _).2 h2]
        rfl

theorem Rep.inj {st : Tags.State} (hi : Inv st) {n m : Nat} {t : Pair} (h : Decodes st n t.1 t.2) (h' : Decodes st m t.1 t.2) : n = m := by
  obtain ⟨p, hp, hk, hv⟩ := h
  obtain ⟨q, hq, hk', hv'⟩ := h'
  have e : p = q := Prod.ext (hi.keyInj _ _ _ hk hk') (hi.valueInj _ _ _ hv hv')
  subst e
  exact hi.pairInj _ _ _ hp hq

theorem decodes_fun {st : Tags.State} {n : Nat} {t u : Pair} (h : Decodes st n t.1 t.2) (h' : Decodes st n u.1 u.2) : t = u := by
  have h1 := Tags.decodes_tag.1 h
  have h2 := Tags.decodes_tag.1 h'
  rw [h1] at h2
  exact Outcome.ok.inj h2

theorem Rep.mem {st : Tags.State} (hi : Inv st) {n : Nat} {t : Pair} (h : Decodes st n t.1 t.2) {ids : List Nat} {ts : List Pair}
    (hr : Rep st ids ts) : n ∈ ids ↔ t ∈ ts := by
  induction hr with
  | nil => simp
  | @cons m u ms us hm _ ih =>
    rw [List.mem_cons, List.mem_cons, ih]
    constructor
    · rintro (rfl | h')
      · exact .inl (decodes_fun h hm)
      · exact .inr h'
    · rintro (rfl | h')
      · exact .inl (Rep.inj hi h hm)
      · exact .inr h'

theorem Rep.append {st : Tags.State} {a b : List Nat} {ta tb : List Pair} (h : Rep st a ta) (h' : Rep st b tb) :
    Rep st (a ++ b) (ta ++ tb) := List.rel_append h h'

theorem Rep.filter {st : Tags.State} (hi : Inv st) {own : List Nat} {tos : List Pair} (ho : Rep st own tos) {a : List Nat}
    {ta : List Pair} (h : Rep st a ta) :
    Rep st (a.filter (fun n => decide (n ∉ own))) (ta.filter (fun t => decide (t ∉ tos))) := by
  induction h with
  | nil => exact List.Forall₂.nil
  | @cons m u ms us hm _ ih =>
    by_cases hc : m ∈ own
    · have hc' : u ∈ tos := (Rep.mem hi hm ho).1 hc
      simp only [List.filter_cons, hc, hc', not_true_eq_false, decide_false, Bool.false_eq_true, if_false]
      exact ih
    · have hc' : u ∉ tos := fun h' => hc ((Rep.mem hi hm ho).2 h')
      simp only [List.filter_cons, hc, hc', not_false_eq_true, decide_true, if_true]
      exact List.Forall₂.cons hm ih

theorem Rep.nil_iff {st : Tags.State} {ids : List Nat} {ts : List Pair} (h : Rep st ids ts) : ids = [] ↔ ts = [] := by
  cases h <;> simp

/-! ### Identifiers are given -/

theorem id_some {st : Tags.State} (hf : st.finalized = false) (k v : String) : ∃ n, (Tags.id st k v false []).2 = some n := by
  have hc := Tags.attempt_count k v (st, [])
  unfold Tags.id
  rw [hf]
  simp only [Bool.false_eq_true, if_false]
  cases h : (Tags.attempt k v (st, [])).2 with
  | some n => exact ⟨n, rfl⟩
  | none => have := hc h; simp at this

theorem identify_spec {st : Tags.State} (hi : Inv st) (hf : st.finalized = false) (t : Pair) :
    ∃ r, identify st t = .ok r ∧ Inv r.1 ∧ Keeps st r.1 ∧ Decodes r.1 r.2 t.1 t.2 := by
  obtain ⟨n, hn⟩ := id_some hf t.1 t.2
  obtain ⟨h1, h2, h3⟩ := Tags.id_spec hi t.1 t.2 false []
  refine ⟨((Tags.id st t.1 t.2 false []).1, n), ?_, h1, h2, h3 n hn⟩
  unfold identify
  rw [hn]

theorem identifyAll_spec (ts : List Pair) : ∀ {st : Tags.State}, Inv st → st.finalized = false →
    ∃ r, identifyAll st ts = .ok r ∧ Inv r.1 ∧ Keeps st r.1 ∧ Rep r.1 r.2 ts := by
  induction ts with
  | nil => intro st hi _; exact ⟨(st, []), rfl, hi, .refl st, List.Forall₂.nil⟩
  | cons t ts ih =>
    intro st hi hf
    obtain ⟨r, h1, h2, h3, h4⟩ := identify_spec hi hf t
    obtain ⟨r', g1, g2, g3, g4⟩ := ih h2 (h3.fin.trans hf)
    refine ⟨(r'.1, r.2 :: r'.2), ?_, g2, h3.trans g3, List.Forall₂.cons (decodes_keeps g3 h4) g4⟩
    rw [identifyAll, h1, Outcome.bind_ok, g1, Outcome.map_ok]

theorem cloneAll_spec {other : Tags.State} {ids : List Nat} {ts : List Pair} (hr : Rep other ids ts) : ∀ {st : Tags.State}, Inv st →
    st.finalized = false → ∃ r, cloneAll other st ids = .ok r ∧ Inv r.1 ∧ Keeps st r.1 ∧ Rep r.1 r.2 ts := by
  induction hr with
  | nil => intro st hi _; exact ⟨(st, []), rfl, hi, .refl st, List.Forall₂.nil⟩
  | @cons n t ns ts hn _ ih =>
    intro st hi hf
    obtain ⟨r, h1, h2, h3, h4⟩ := identify_spec hi hf t
    obtain ⟨r', g1, g2, g3, g4⟩ := ih h2 (h3.fin.trans hf)
    refine ⟨(r'.1, r.2 :: r'.2), ?_, g2, h3.trans g3, List.Forall₂.cons (decodes_keeps g3 h4) g4⟩
    rw [cloneAll, Tags.decodes_tag.1 hn, Outcome.bind_ok, h1, Outcome.bind_ok, g1, Outcome.map_ok]

/-! ### Boxes -/

/-- A storage in which `tags w i` are the decoded tags of the element. -/
structure Holds (b : Box) (tags : Which → Nat → List Pair) : Prop where
  inv : Inv b.st
  rep : ∀ w i, Rep b.st (Tags.mapTags (b.map w) i) (tags w i)
  some : ∀ w i l, Tags.find (b.map w) i = some l → l ≠ []

theorem Holds.read {b : Box} {tags : Which → Nat → List Pair} (h : Holds b tags) (w : Which) (i : Nat) : b.read w i = .ok (tags w i) :=
  (decode_iff _ _ _).2 (h.rep w i)

theorem holds_empty : Holds {} (fun _ _ => []) := by
  refine ⟨Tags.inv_empty, fun w i => ?_, fun w i l h => ?_⟩
  · cases w <;> exact List.Forall₂.nil
  · cases w <;> simp [Box.map, Tags.find] at h

/-- The tags of one element, if it had none. -/
def give (tags : Which → Nat → List Pair) (w : Which) (i : Nat) (ts : List Pair) : Which → Nat → List Pair :=
  fun w' k => if w' = w ∧ k = i ∧ tags w i = [] then ts else tags w' k

theorem map_put (b : Box) (w w' : Which) (m : List (Nat × List Nat)) : (b.put w m).map w' = if w' = w then m else b.map w' := by
  cases w <;> cases w' <;> rfl

theorem st_put (b : Box) (w : Which) (m : List (Nat × List Nat)) : (b.put w m).st = b.st := by cases w <;> rfl

theorem holds_emplace {b : Box} {tags : Which → Nat → List Pair} (h : Holds b tags) {st : Tags.State} (hi : Inv st) (hk : Keeps b.st st)
    {ids : List Nat} {ts : List Pair} (hr : Rep st ids ts) (hne : ids ≠ []) (w : Which) (i : Nat) :
    Holds ({ b with st := st }.put w (Tags.emplace (b.map w) i ids)) (give tags w i ts) := by
  have hmap : ∀ w', ({ b with st := st } : Box).map w' = b.map w' := fun w' => by cases w' <;> rfl
  refine ⟨by rw [st_put]; exact hi, fun w' k => ?_, fun w' k l hl => ?_⟩
  · rw [st_put, map_put, hmap]
    simp only [give]
    by_cases hw : w' = w
    · subst hw
      rw [if_pos rfl]
      cases hf : Tags.find (b.map w') i with
      | some l =>
        have hn : tags w' i ≠ [] := by
          have := h.rep w' i
          rw [show Tags.mapTags (b.map w') i = l by simp [Tags.mapTags, hf]] at this
          exact fun h0 => h.some w' i l hf ((Rep.nil_iff this).2 h0)
        rw [if_neg (by simp [hn]), Tags.emplace, hf]
        simp only [Option.isSome_some, if_true]
        exact (h.rep w' k).keeps hk
      | none =>
        have hn : tags w' i = [] := by
          have := h.rep w' i
          rw [show Tags.mapTags (b.map w') i = [] by simp [Tags.mapTags, hf]] at this
          exact (Rep.nil_iff this).1 rfl
        rw [Tags.mapTags_emplace hf]
        by_cases hk' : i = k
        · subst hk'
          rw [if_pos rfl, if_pos ⟨rfl, rfl, hn⟩]
          exact hr
        · rw [if_neg hk', if_neg (fun h' => hk' h'.2.1.symm)]
          exact (h.rep w' k).keeps hk
    · rw [if_neg hw, if_neg (fun h' => hw h'.1)]
      exact (h.rep w' k).keeps hk
  · rw [map_put, hmap] at hl
    by_cases hw : w' = w
    · subst hw
      rw [if_pos rfl] at hl
      cases hf : Tags.find (b.map w') i with
      | some l' =>
        rw [Tags.emplace, hf] at hl
        exact h.some w' k l (by simpa using hl)
      | none =>
        rw [Tags.emplace_new _ hf, Tags.find_append] at hl
        cases hg : Tags.find (b.map w') k with
        | some l' =>
          rw [hg] at hl
          simp only [Option.some_or, Option.some.injEq] at hl
          subst hl
          exact h.some w' k _ hg
        | none =>
          rw [hg] at hl
          by_cases hk' : i = k
          · simp [hk'] at hl
            subst hl
            exact hne
          · simp [hk'] at hl
    · rw [if_neg hw] at hl
      exact h.some w' k l hl

theorem set_spec {b : Box} {tags : Which → Nat → List Pair} (h : Holds b tags) (hf : b.st.finalized = false) (w : Which) (i : Nat)
    (ts : List Pair) : ∃ b', b.set w i ts = .ok b' ∧ Holds b' (give tags w i ts) ∧ b'.st.finalized = false := by
  unfold Box.set
  by_cases ht : ts = []
  · subst ht
    refine ⟨b, if_pos rfl, ?_, hf⟩
    have : give tags w i [] = tags := by
      funext w' k
      simp only [give]
      split
      · next hc => rw [hc.1, hc.2.1, hc.2.2]
      · rfl
    rw [this]
    exact h
  · rw [if_neg ht]
    obtain ⟨r, h1, h2, h3, h4⟩ := identifyAll_spec ts h.inv hf
    have hne : r.2 ≠ [] := fun h0 => ht ((Rep.nil_iff h4).1 h0)
    rw [h1, Outcome.map_ok]
    refine ⟨_, rfl, ?_, ?_⟩
    · rw [Tags.setMapTags, if_neg hne]
      exact holds_emplace h h2 h3 h4 hne w i
    · rw [st_put]
      exact h3.fin.trans hf

theorem clone_spec {b other : Box} {tags tags' : Which → Nat → List Pair} (h : Holds b tags) (hf : b.st.finalized = false)
    (ho : Holds other tags') (w : Which) (i : Nat) :
    ∃ b', b.clone other w i = .ok b' ∧ Holds b' (give tags w i (tags' w i)) ∧ b'.st.finalized = false := by
  unfold Box.clone
  have hr := ho.rep w i
  by_cases ht : Tags.mapTags (other.map w) i = []
  · refine ⟨b, if_pos ht, ?_, hf⟩
    rw [(Rep.nil_iff hr).1 ht]
    have : give tags w i [] = tags := by
      funext w' k
      simp only [give]
      split
      · next hc => rw [hc.1, hc.2.1, hc.2.2]
      · rfl
    rw [this]
    exact h
  · rw [if_neg ht]
    obtain ⟨r, h1, h2, h3, h4⟩ := cloneAll_spec hr h.inv hf
    have hne : r.2 ≠ [] := fun h0 => ht ((Rep.nil_iff hr).2 ((Rep.nil_iff h4).1 h0))
    rw [h1, Outcome.map_ok]
    refine ⟨_, rfl, holds_emplace h h2 h3 h4 hne w i, ?_⟩
    rw [st_put]
    exact h3.fin.trans hf

/-- The tags after a merge of edges. -/
def joined (tags : Which → Nat → List Pair) (i j : Nat) : Which → Nat → List Pair :=
  fun w k => if w = .edges ∧ k = i then tags .edges i ++ (tags .edges j).filter (fun t => decide (t ∉ tags .edges i)) else tags w k

theorem merge_spec {b : Box} {tags : Which → Nat → List Pair} (h : Holds b tags) (i j : Nat) :
    Holds (b.merge i j) (joined tags i j) := by
  refine ⟨h.inv, fun w k => ?_, fun w k l hl => ?_⟩
  · cases w with
    | nodes => simpa [joined, Box.merge, Box.map] using h.rep .nodes k
    | edges =>
      show Rep b.st (Tags.mapTags (Tags.mergeMapTags b.edges i j) k) _
      rw [Tags.merge_tags]
      simp only [joined, true_and]
      split
      · exact (h.rep .edges i).append (Rep.filter h.inv (h.rep .edges i) (h.rep .edges j))
      · exact h.rep .edges k
  · cases w with
    | nodes => exact h.some .nodes k l hl
    | edges =>
      have hl : Tags.find (Tags.mergeMapTags b.edges i j) k = some l := hl
      unfold Tags.mergeMapTags at hl
      split at hl
      · exact h.some .edges k l hl
      · split at hl
        · exact h.some .edges k l hl
        · next other ho =>
          split at hl
          · next own hown =>
            rw [Tags.find_update] at hl
            split at hl
            · rw [hown] at hl
              simp only [Option.map_some, Option.some.injEq] at hl
              subst hl
              have := h.some .edges i own hown
              simp [this]
            · exact h.some .edges k l hl
          · next hown =>
            rw [Tags.emplace_new _ hown, Tags.find_append] at hl
            cases hg : Tags.find b.edges k with
            | some l' =>
              rw [hg] at hl
              simp only [Option.some_or, Option.some.injEq] at hl
              subst hl
              exact h.some .edges k _ hg
            | none =>
              rw [hg] at hl
              by_cases hk' : i = k
              · simp [hk'] at hl
                subst hl
                exact h.some .edges j _ ho
              · simp [hk'] at hl

theorem finish_spec {b : Box} {tags : Which → Nat → List Pair} (h : Holds b tags) : Holds b.finish tags := by
  refine ⟨(Tags.call_spec h.inv .finalize).1, fun w i => ?_, fun w i l hl => ?_⟩
  · have : b.finish.map w = b.map w := by cases w <;> rfl
    rw [this]
    exact List.Forall₂.imp (fun n t hd => hd) (h.rep w i)
  · have : b.finish.map w = b.map w := by cases w <;> rfl
    rw [this] at hl
    exact h.some w i l hl

theorem joins_same {g : Box} {r s : Road} (h : joins g false r s = true) : r.id = s.id := by
  simp [joins] at h
  exact h.1

end MM.TagFlow
