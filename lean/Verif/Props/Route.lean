import Verif.Proofs.Route
import Mathlib.Data.List.Nodup

/-!
# C29: merging and joining routes
-/

set_option autoImplicit false
set_option linter.unusedSectionVars false

namespace MM.Route

open MM.Line

variable {P : Type} [DecidableEq P] {R A : Type}

/-- The lines that have points meet one after the other. -/
def Connected (ls : List (List P)) : Prop := (nonempty ls).IsChain Meets

theorem merge_ok {ext : Ref P → Prop} {next : Nat} {rs : List (Route P)} (connect except : Bool)
    (hg : ∀ r ∈ rs, Good ext next r) (hv : ∃ r ∈ rs, r.invalid = false) :
    (∀ r, merge connect except next rs = .ok r → r.invalid = false ∧ r.lines = welded connect [] (usable rs) ∧
      ∃ n, Good ext n r) ∧
    merge connect except next rs ≠ .ub ∧
    (connect = true ∨ except = false → ∃ r, merge connect except next rs = .ok r) ∧
    (connect = false → except = true → (merge connect except next rs = .throws ↔ hasGap [] (usable rs))) := by
  have hall : rs.all Route.invalid = false := by
    obtain ⟨r, hr, hi⟩ := hv
    rw [List.all_eq_false]
    exact ⟨r, hr, by simp [hi]⟩
  have heq : merge connect except next rs =
      (mergeLoop connect except rs ⟨[], [], next⟩).bind fun acc => build acc.own acc.refs := by
    rw [merge, hall]
    rfl
  rw [heq]
  obtain ⟨h1, h2, h3, h4⟩ := mergeLoop_spec connect except rs _ (accGood_nil ext next) hg
  cases hl : mergeLoop connect except rs ⟨[], [], next⟩ with
  | ok acc =>
    rw [hl] at h4
    obtain ⟨hacc, hlines⟩ := h1 acc hl
    obtain ⟨hb, hgood⟩ := build_spec hacc
    simp only [Outcome.bind_ok, hb]
    refine ⟨?_, by simp, fun _ => ⟨_, rfl⟩, ?_⟩
    · intro r hr
      injection hr with hr
      subst hr
      exact ⟨rfl, hlines, _, hgood⟩
    · intro hc he
      have := h4 hc he
      simpa using this
  | throws =>
    rw [hl] at h3 h4
    simp only [Outcome.bind_throws]
    refine ⟨by simp, by simp, fun h => absurd rfl (h3 h), ?_⟩
    intro hc he
    simpa using h4 hc he
  | ub => exact absurd hl h2

/-- **C29, lines.**  Merging routes whose references are alive gives a route whose references are alive and whose lines are
those of the mergeable routes, one after the other.  (`Good`: owned lines once and in order, others outside.) -/
theorem merge_lines {ext : Ref P → Prop} {next : Nat} {rs : List (Route P)} (hg : ∀ r ∈ rs, Good ext next r)
    (hv : ∃ r ∈ rs, r.invalid = false) :
    ∃ r n, merge false false next rs = .ok r ∧ Good ext n r ∧ r.invalid = false ∧
      r.lines = (rs.filter Route.mergeable).flatMap Route.lines := by
  obtain ⟨h1, _, h3, _⟩ := merge_ok (ext := ext) false false hg hv
  obtain ⟨r, hr⟩ := h3 (.inr rfl)
  obtain ⟨h4, h5, n, h6⟩ := h1 r hr
  refine ⟨r, n, hr, h6, h4, ?_⟩
  rw [h5, welded_false, List.nil_append]
  rfl

/-- If nothing valid is merged, the result is invalid. -/
theorem merge_invalid (connect except : Bool) (next : Nat) {rs : List (Route P)} (h : ∀ r ∈ rs, r.invalid = true) :
    merge connect except next rs = .ok Route.bad := by
  rw [merge, if_pos]
  exact List.all_eq_true.2 h

/-- Two routes that were not found. -/
example : merge (P := Nat) true false 5 [Route.bad, Route.bad] = .ok Route.bad := merge_invalid true false 5 (by decide)

theorem meets_iff {a b : List P} (ha : a ≠ []) (hb : b ≠ []) : Meets a b ↔ attaches a b = true := by
  obtain ⟨q, rest, rfl⟩ := List.exists_cons_of_ne_nil hb
  have hl : a.getLast? = some (a.getLast ha) := List.getLast?_eq_getLast_of_ne_nil ha
  simp [Meets, attaches, hl]

/-- `is_connected` holds of every route whose lines meet; if no line is empty it decides that. -/
theorem connected_reported {ls : List (List P)} (h : Connected ls) : linesConnected ls = true := by
  induction ls with
  | nil => rfl
  | cons a ls ih =>
    cases ls with
    | nil => rfl
    | cons b ls =>
      rw [linesConnected, Bool.and_eq_true]
      unfold Connected at h ih
      rw [nonempty_cons] at h
      refine ⟨?_, ih ?_⟩
      · split_ifs at h with ha
        · simp [ha]
        · rw [nonempty_cons] at h
          split_ifs at h with hb
          · simp [hb]
          · rw [List.isChain_cons_cons] at h
            rw [(meets_iff ha hb).1 h.1]
            simp
      · split_ifs at h with ha
        · exact h
        · exact h.tail

theorem connected_iff {ls : List (List P)} (hne : ∀ l ∈ ls, l ≠ []) : linesConnected ls = true ↔ ls.IsChain Meets := by
  induction ls with
  | nil => simp [linesConnected]
  | cons a ls ih =>
    cases ls with
    | nil => simp [linesConnected]
    | cons b ls =>
      have ha := hne a List.mem_cons_self
      have hb := hne b (by simp)
      rw [linesConnected, Bool.and_eq_true, List.isChain_cons_cons, ih (fun l hl => hne l (List.mem_cons_of_mem _ hl)),
        meets_iff ha hb]
      simp [ha, hb]

theorem filter_nonempty (ls : List (List P)) : ls.filter (fun l => !l.isEmpty) = nonempty ls := by
  unfold nonempty
  apply List.filter_congr
  intro l _
  cases l <;> simp

theorem nonempty_all (ls : List (List P)) : ∀ l ∈ nonempty ls, l ≠ [] := by
  intro l hl
  exact of_decide_eq_true (List.mem_filter.1 hl).2

theorem gap_iff {a b : List P} (ha : a ≠ []) (hb : b ≠ []) : gap a b = false ↔ Meets a b := by
  obtain ⟨q, rest, rfl⟩ := List.exists_cons_of_ne_nil hb
  have hl : a.getLast? = some (a.getLast ha) := List.getLast?_eq_getLast_of_ne_nil ha
  simp [Meets, gap, hl]

theorem attachGaps_chain {ls : List (List P)} (hne : ∀ l ∈ ls, l ≠ []) (h : ls.IsChain Meets) : attachGaps ls = ls := by
  induction ls with
  | nil => rfl
  | cons a ls ih =>
    cases ls with
    | nil => rfl
    | cons b ls =>
      rw [List.isChain_cons_cons] at h
      have hg := (gap_iff (hne a List.mem_cons_self) (hne b (by simp))).2 h.1
      rw [attachGaps, hg, ih (fun l hl => hne l (List.mem_cons_of_mem _ hl)) h.2]

/-- The points of a connected route are its lines one after the other without the repeated joints. -/
theorem richLine_connected {r : Route P} (h : Connected r.lines) : r.richLine = .ok (joined (nonempty r.lines)) := by
  unfold Route.richLine
  rw [filter_nonempty, attachGaps_chain (nonempty_all _) h]
  have hn : nonempty ([] :: nonempty r.lines) = nonempty r.lines := by
    rw [nonempty_cons, if_pos rfl]
    unfold nonempty
    rw [List.filter_filter]
    simp
  have := (merge_concat [] (nonempty r.lines)).1 (by rw [hn]; exact h)
  rw [this, hn]

theorem drop_nonempty_ne {rs : List (Route P)} (h : ∃ r ∈ rs, r.mergeable = true) : nonempty (usable rs).flatten ≠ [] := by
  obtain ⟨r, hr, hm⟩ := h
  have hany : ∃ l ∈ r.lines, l ≠ [] := by
    unfold Route.mergeable at hm
    split_ifs at hm
    obtain ⟨l, hl, hs⟩ := List.any_eq_true.1 hm
    refine ⟨l, hl, ?_⟩
    rintro rfl
    simp [segs] at hs
  obtain ⟨l, hl, hne⟩ := hany
  intro he
  have : l ∈ nonempty (usable rs).flatten := by
    refine List.mem_filter.2 ⟨?_, by simpa using hne⟩
    exact List.mem_flatten.2 ⟨r.lines, List.mem_map_of_mem (List.mem_filter.2 ⟨hr, hm⟩), hl⟩
  rw [he] at this
  simp at this

/-- **C29, connected routes.**  If valid routes follow each other without gaps, at least one of them with a length, the
merged route is connected, and its points are those of the routes one after the other, up to repetitions of a point. -/
theorem merge_connected {ext : Ref P → Prop} {next : Nat} {rs : List (Route P)} (hg : ∀ r ∈ rs, Good ext next r)
    (hv : ∀ r ∈ rs, r.invalid = false) (hm : ∃ r ∈ rs, r.mergeable = true) (hc : Connected (rs.flatMap Route.lines)) :
    ∃ r n pts, merge false false next rs = .ok r ∧ Good ext n r ∧ Connected r.lines ∧ r.isConnected = true ∧
      r.richLine = .ok pts ∧ squash pts = squash (joined (nonempty (rs.flatMap Route.lines))) := by
  obtain ⟨r0, hr0, hm0⟩ := hm
  obtain ⟨r, n, h1, h2, h3, h4⟩ := merge_lines (ext := ext) hg ⟨r0, hr0, hv r0 hr0⟩
  have hd := drop_usable rs hv
  have hu : (usable rs).flatten = (rs.filter Route.mergeable).flatMap Route.lines := rfl
  have hchain := drop_chain' hd hc
  rw [hu, ← h4] at hchain
  refine ⟨r, n, _, h1, h2, hchain, connected_reported hchain, richLine_connected hchain, ?_⟩
  rw [drop_squash hd hc (drop_nonempty_ne ⟨r0, hr0, hm0⟩), hu, h4]

/-- **C29, length.**  Whatever valid routes are merged, connected or not, the merged route has a length iff one of them has,
and it is the sum of the lengths (exact arithmetic), which is the sum over all segments. -/
theorem merge_length [AddCommMonoid R] {G : Geo P R A} (hG : Adds G) {ext : Ref P → Prop} {next : Nat} {rs : List (Route P)}
    (hg : ∀ r ∈ rs, Good ext next r) (hv : ∀ r ∈ rs, r.invalid = false) (hne : rs ≠ []) :
    ∃ r, merge false false next rs = .ok r ∧
      ((routeLength G r.lines).isSome ↔ ∃ x ∈ rs, (routeLength G x.lines).isSome) ∧
      (routeLength G r.lines).getD 0 = (rs.map (fun x => (routeLength G x.lines).getD 0)).sum ∧
      (routeLength G r.lines).getD 0 = segmentSum G.len (rs.flatMap Route.lines) := by
  obtain ⟨r0, hr0⟩ := List.exists_mem_of_ne_nil _ hne
  obtain ⟨r, n, h1, h2, h3, h4⟩ := merge_lines (ext := ext) hg ⟨r0, hr0, hv r0 hr0⟩
  have hsum : (routeLength G r.lines).getD 0 = segmentSum G.len (rs.flatMap Route.lines) := by
    rw [routeLength_sum hG, h4, drop_segmentSum G.len (drop_usable rs hv)]
    rfl
  refine ⟨r, h1, ?_, ?_, hsum⟩
  · rw [routeLength_isSome, h4]
    constructor
    · rintro ⟨l, hl, hs⟩
      obtain ⟨x, hx, hlx⟩ := List.mem_flatMap.1 hl
      exact ⟨x, (List.mem_filter.1 hx).1, (routeLength_isSome G _).2 ⟨l, hlx, hs⟩⟩
    · rintro ⟨x, hx, hs⟩
      obtain ⟨l, hl, s, hs, hne⟩ := (routeLength_isSome G _).1 hs
      have hxm : x.mergeable = true := by
        by_contra hxm
        exact hne (not_mergeable (hv x hx) hxm l hl s hs)
      exact ⟨l, List.mem_flatMap.2 ⟨x, List.mem_filter.2 ⟨hx, hxm⟩, hl⟩, s, hs, hne⟩
  · rw [hsum]
    clear hsum h1 h2 h3 h4 hg hv hne hr0
    induction rs with
    | nil => rfl
    | cons x rs ih => rw [List.flatMap_cons, segmentSum_append, ih, List.map_cons, List.sum_cons, routeLength_sum hG]

/-- **C29, refusing gaps.**  With `non_connect_except` merging throws exactly if there is a gap between two mergeable
routes; otherwise the result is the same. -/
theorem merge_refuses_gaps {ext : Ref P → Prop} {next : Nat} {rs : List (Route P)} (hg : ∀ r ∈ rs, Good ext next r)
    (hv : ∃ r ∈ rs, r.invalid = false) :
    (merge false true next rs = .throws ↔ hasGap [] ((rs.filter Route.mergeable).map Route.lines)) ∧
    (merge false true next rs ≠ .throws → ∃ r, merge false true next rs = .ok r ∧
      r.lines = (rs.filter Route.mergeable).flatMap Route.lines) := by
  obtain ⟨h1, h2, _, h4⟩ := merge_ok (ext := ext) false true hg hv
  refine ⟨h4 rfl rfl, ?_⟩
  intro hne
  cases hm : merge false true next rs with
  | ok r =>
    refine ⟨r, rfl, ?_⟩
    rw [(h1 r hm).2.1, welded_false]
    rfl
  | throws => exact absurd hm hne
  | ub => exact absurd hm h2

/-- Lines of a route with points at both ends. -/
def Ended (ls : List (List P)) : Prop := (∃ l, ls.head? = some l ∧ l ≠ []) ∧ ∃ l, ls.getLast? = some l ∧ l ≠ []

theorem nonempty_append (a b : List (List P)) : nonempty (a ++ b) = nonempty a ++ nonempty b := by
  unfold nonempty
  rw [List.filter_append]

theorem nonempty_last {ls : List (List P)} {l : List P} (h : ls.getLast? = some l) (hl : l ≠ []) :
    (nonempty ls).getLast? = some l := by
  obtain ⟨pre, rfl⟩ := List.getLast?_eq_some_iff.1 h
  rw [nonempty_append]
  have : nonempty [l] = [l] := by rw [nonempty_cons, if_neg hl]; rfl
  rw [this]
  simp

theorem nonempty_head {ls : List (List P)} {l : List P} (h : ls.head? = some l) (hl : l ≠ []) :
    (nonempty ls).head? = some l := by
  cases ls with
  | nil => simp at h
  | cons x ls =>
    simp only [List.head?_cons, Option.some.injEq] at h
    subst h
    rw [nonempty_cons, if_neg hl]
    rfl

theorem chain_join {a b : List (List P)} (ha : a.IsChain Meets) (hb : b.IsChain Meets)
    (h : ∀ x y, a.getLast? = some x → b.head? = some y → Meets x y) : (a ++ b).IsChain Meets := by
  rw [List.isChain_append]
  exact ⟨ha, hb, fun x hx y hy => h x y (by simpa using hx) (by simpa using hy)⟩

theorem welded_connected (lss : List (List (List P))) : ∀ acc : List (List P), Connected acc → (acc = [] ∨ Ended acc) →
    (∀ ls ∈ lss, Connected ls ∧ Ended ls) → Connected (welded true acc lss) := by
  induction lss with
  | nil => intro acc h _ _; exact h
  | cons ls rest ih =>
    intro acc h he hls
    obtain ⟨hc, hends⟩ := hls ls List.mem_cons_self
    rw [welded]
    have hlast : ∃ l, (acc ++ gapLines true acc ls ++ ls).getLast? = some l ∧ l ≠ [] := by
      obtain ⟨l, hl, hne⟩ := hends.2
      refine ⟨l, ?_, hne⟩
      rw [List.getLast?_append, hl]
      rfl
    refine ih _ ?_ (.inr ⟨?_, hlast⟩) (fun x hx => hls x (List.mem_cons_of_mem _ hx))
    · rcases he with rfl | he
      · have : gapLines true ([] : List (List P)) ls = [] := by simp [gapLines, gapBetween]
        rw [this]
        exact hc
      · obtain ⟨x, hx, hxne⟩ := he.2
        obtain ⟨y, hy, hyne⟩ := hends.1
        have hxl : x.getLast? = some (x.getLast hxne) := List.getLast?_eq_getLast_of_ne_nil hxne
        obtain ⟨q, qs, rfl⟩ := List.exists_cons_of_ne_nil hyne
        unfold Connected at h hc ⊢
        rw [nonempty_append, nonempty_append]
        by_cases hpq : x.getLast hxne = q
        · have hgl : gapLines true acc ls = [] := by
            simp [gapLines, gapBetween, hx, hy, hxl, hpq]
          rw [hgl]
          simp only [show nonempty ([] : List (List P)) = [] from rfl, List.append_nil]
          refine chain_join h hc ?_
          intro u v hu hv
          rw [nonempty_last hx hxne] at hu
          rw [nonempty_head hy (by simp)] at hv
          injection hu with hu
          injection hv with hv
          subst hu hv
          rw [Meets, hxl, hpq]
          rfl
        · have hgl : gapLines true acc ls = [[x.getLast hxne, q]] := by
            simp [gapLines, gapBetween, hx, hy, hxl, hpq]
          rw [hgl]
          have hng : nonempty [[x.getLast hxne, q]] = [[x.getLast hxne, q]] := by
            rw [nonempty_cons, if_neg (by simp)]; rfl
          rw [hng]
          refine chain_join (chain_join h (List.isChain_singleton _) ?_) hc ?_
          · intro u v hu hv
            rw [nonempty_last hx hxne] at hu
            injection hu with hu
            simp only [List.head?_cons, Option.some.injEq] at hv
            subst hu hv
            rw [Meets, hxl]
            rfl
          · intro u v hu hv
            rw [nonempty_head hy (by simp)] at hv
            injection hv with hv
            rw [List.getLast?_append] at hu
            simp only [List.getLast?_singleton, Option.some_or, Option.some.injEq] at hu
            subst hu hv
            rfl
    · rcases he with rfl | he
      · obtain ⟨l, hl, hne⟩ := hends.1
        have : gapLines true ([] : List (List P)) ls = [] := by simp [gapLines, gapBetween]
        exact ⟨l, by rw [this]; exact hl, hne⟩
      · obtain ⟨l, hl, hne⟩ := he.1
        refine ⟨l, ?_, hne⟩
        rw [List.head?_append, List.head?_append, hl]
        rfl

/-- **C29, bridging gaps.**  With `connect` the merged route is connected if every mergeable route is and begins and ends
with a line that has points. -/
theorem merge_bridges_gaps {ext : Ref P → Prop} {next : Nat} {rs : List (Route P)} (hg : ∀ r ∈ rs, Good ext next r)
    (hv : ∃ r ∈ rs, r.invalid = false) (hc : ∀ r ∈ rs, r.mergeable = true → Connected r.lines ∧ Ended r.lines) (except : Bool) :
    ∃ r n, merge true except next rs = .ok r ∧ Good ext n r ∧ Connected r.lines ∧ r.isConnected = true := by
  obtain ⟨h1, _, h3, _⟩ := merge_ok (ext := ext) true except hg hv
  obtain ⟨r, hr⟩ := h3 (.inl rfl)
  obtain ⟨h4, h5, n, h6⟩ := h1 r hr
  have hcon : Connected r.lines := by
    rw [h5]
    apply welded_connected _ [] List.isChain_nil (.inl rfl)
    intro ls hls
    obtain ⟨x, hx, rfl⟩ := List.mem_map.1 hls
    obtain ⟨hx1, hx2⟩ := List.mem_filter.1 hx
    exact hc x hx1 hx2
  exact ⟨r, n, hr, h6, hcon, connected_reported hcon⟩

/-! ### Examples of merging -/

/-- Lines of the network at addresses below 10. -/
def demoExt (x : Ref Nat) : Prop := x ∈ [⟨0, [0, 1]⟩, ⟨1, [1, 2]⟩, ⟨2, [2, 3]⟩]

def demoA : Route Nat := ⟨[⟨10, [5, 0]⟩], [⟨10, [5, 0]⟩, ⟨0, [0, 1]⟩], false⟩
def demoB : Route Nat := ⟨[⟨11, [1, 1]⟩], [⟨11, [1, 1]⟩], false⟩
def demoC : Route Nat := ⟨[⟨12, [2, 7]⟩], [⟨1, [1, 2]⟩, ⟨12, [2, 7]⟩], false⟩

theorem demo_good : ∀ r ∈ [demoA, demoB, demoC], Good demoExt 20 r := by
  intro r hr
  simp only [List.mem_cons, List.not_mem_nil, or_false] at hr
  rcases hr with rfl | rfl | rfl
  · exact ⟨by decide, by decide, by simp [demoA, demoExt], by decide⟩
  · exact ⟨by decide, by decide, by simp [demoB, demoExt], by decide⟩
  · exact ⟨by decide, by decide, by simp [demoC, demoExt], by decide⟩

/-- Routes with owned and referenced lines, one of them without length. -/
example : (∀ r ∈ [demoA, demoB, demoC], Good demoExt 20 r) ∧ (∃ r ∈ [demoA, demoB, demoC], r.mergeable = true) ∧
    Connected ([demoA, demoB, demoC].flatMap Route.lines) ∧
    merge false false 20 [demoA, demoB, demoC] =
      .ok ⟨[⟨20, [5, 0]⟩, ⟨21, [2, 7]⟩], [⟨20, [5, 0]⟩, ⟨0, [0, 1]⟩, ⟨1, [1, 2]⟩, ⟨21, [2, 7]⟩], false⟩ := by
  refine ⟨demo_good, by decide, ?_, by decide⟩
  simp [Connected, nonempty, demoA, demoB, demoC, Route.lines, Meets]

/-- `merge_length` of these: 5 + 1, nothing, 1 + 5. -/
example : ∃ r, merge false false 20 [demoA, demoB, demoC] = .ok r ∧ (routeLength demoGeo r.lines).getD 0 = 12 := by
  obtain ⟨r, h1, _, h2, _⟩ := merge_length (G := demoGeo) ⟨rfl, rfl⟩ demo_good (by decide) (by simp)
  exact ⟨r, h1, h2.trans (by decide)⟩

/-- With a gap: bridged, refused or left. -/
example : (merge true false 20 [demoA, Route.ofRefs [⟨2, [2, 3]⟩]]).map Route.lines = .ok [[5, 0], [0, 1], [1, 2], [2, 3]] ∧
    merge false true 20 [demoA, Route.ofRefs [⟨2, [2, 3]⟩]] = .throws ∧
    (merge false false 20 [demoA, Route.ofRefs [⟨2, [2, 3]⟩]]).map Route.lines = .ok [[5, 0], [0, 1], [2, 3]] ∧
    (∃ r ∈ [demoA, Route.ofRefs [⟨2, [2, 3]⟩]], r.invalid = false) ∧
    (∀ r ∈ [demoA, Route.ofRefs [⟨2, [2, 3]⟩]], r.mergeable = true → Connected r.lines ∧ Ended r.lines) := by
  refine ⟨by decide, by decide, by decide, by decide, ?_⟩
  intro r hr _
  simp only [List.mem_cons, List.not_mem_nil, or_false] at hr
  rcases hr with rfl | rfl <;> simp [Connected, Ended, nonempty, demoA, Route.lines, Meets, Route.ofRefs]

/-- **C29 fails**: a route with a gap is reported as connected if an empty line stands in the gap. -/
theorem hidden_gap_connected_fails : ∃ r : Route Nat, r.isConnected = true ∧ ¬ Connected r.lines := by
  refine ⟨Route.ofRefs [⟨0, [0, 1]⟩, ⟨1, []⟩, ⟨2, [2, 3]⟩], by decide, ?_⟩
  simp [Connected, nonempty, Route.ofRefs, Route.lines, Meets]

/-! ### Joining -/

theorem replaceLast_lines (r : Route P) (ref : Ref P) {line : List P} (hl : line ≠ []) (next : Nat) :
    (replaceLast r ref line next).lines = r.lines.dropLast ++ [line] ∧ (replaceLast r ref line next).invalid = r.invalid := by
  unfold replaceLast Route.lines
  have : line.isEmpty = false := by cases line <;> simp_all
  simp [this, List.map_dropLast]

theorem replaceFirst_lines (r : Route P) (ref : Ref P) (line : List P) (next : Nat) :
    (replaceFirst r ref line next).lines = (if line = [] then [] else [line]) ++ r.lines.tail ∧
      (replaceFirst r ref line next).invalid = r.invalid := by
  unfold replaceFirst Route.lines
  cases line with
  | nil => simp
  | cons p ps => simp

/-- The routes can be joined: both valid, with at least two points in the lines that meet. -/
def Joinable (a b : Route P) : Prop :=
  a.invalid = false ∧ b.invalid = false ∧
    ∃ la lb, a.lines.getLast? = some la ∧ b.lines.head? = some lb ∧ 2 ≤ la.length ∧ 2 ≤ lb.length

/-- The turn at the joint is (nearly) a reversal. -/
def Reversal (G : Geo P R A) (turn : A → Bool) (a b : Route P) : Prop :=
  ∃ (x y z w : P) (pre post : List P), a.lines.getLast? = some (pre ++ [x, y]) ∧ b.lines.head? = some (z :: w :: post) ∧
    x ≠ y ∧ z ≠ w ∧ turn (G.dir (G.az x y) (G.az z w)) = true

theorem segs_last (pre : List P) (x y : P) : (segs (pre ++ [x, y])).getLast? = some (x, y) := by
  induction pre with
  | nil => simp [segs]
  | cons a pre ih =>
    cases pre with
    | nil => simp [segs]
    | cons b pre =>
      have : segs (a :: b :: pre ++ [x, y]) = (a, b) :: segs (b :: pre ++ [x, y]) := by simp [segs]
      rw [this, List.getLast?_cons, ih]
      rfl

theorem two_last {l : List P} (h : 2 ≤ l.length) : ∃ pre x y, l = pre ++ [x, y] := by
  have hne : l ≠ [] := by rintro rfl; simp at h
  have h2 : l.dropLast ≠ [] := by
    intro hh
    have := congrArg List.length hh
    simp at this
    omega
  refine ⟨l.dropLast.dropLast, l.dropLast.getLast h2, l.getLast hne, ?_⟩
  have e1 := List.dropLast_append_getLast hne
  have e2 := List.dropLast_append_getLast h2
  conv_lhs => rw [← e1, ← e2]
  simp

theorem two_first {l : List P} (h : 2 ≤ l.length) : ∃ x y post, l = x :: y :: post := by
  match l, h with
  | x :: y :: post, _ => exact ⟨x, y, post, rfl⟩

theorem join_cases (G : Geo P R A) (turn : A → Bool) (retain : Bool) (next : Nat) (a b : Route P) (pre post : List P)
    (x y z w : P) (ha : a.lines.getLast? = some (pre ++ [x, y])) (hb : b.lines.head? = some (z :: w :: post))
    (hia : a.invalid = false) (hib : b.invalid = false)
    (hrev : ¬ (retain = true ∧ x ≠ y ∧ z ≠ w ∧ turn (G.dir (G.az x y) (G.az z w)) = true)) :
    (join G turn retain next a b).1.lines = a.lines.dropLast ++ [pre ++ [x, w]] ∧
    (join G turn retain next a b).2.lines = (if post = [] then [] else [w :: post]) ++ b.lines.tail ∧
    (join G turn retain next a b).1.invalid = false ∧ (join G turn retain next a b).2.invalid = false := by
  unfold Route.lines at ha hb
  rw [List.getLast?_map] at ha
  rw [List.head?_map] at hb
  obtain ⟨ra, hra, hra2⟩ := Option.map_eq_some_iff.1 ha
  obtain ⟨rb, hrb, hrb2⟩ := Option.map_eq_some_iff.1 hb
  have hjb : joinBack ra.line rb.line = pre ++ [x, w] := by
    rw [hra2, hrb2]
    unfold joinBack clearShort
    have : (pre ++ [x, y]).dropLast = pre ++ [x] := by
      rw [show pre ++ [x, y] = (pre ++ [x]) ++ [y] by simp, List.dropLast_concat]
    rw [this]
    rw [if_neg]
    · simp
    · simp
  have hjf : joinFront rb.line = if post = [] then [] else w :: post := by
    rw [hrb2]
    unfold joinFront clearShort
    rw [List.tail_cons]
    cases post with
    | nil => rfl
    | cons p ps =>
      rw [if_neg (by simp only [List.length_cons]; omega), if_neg (by simp)]
  have hj : join G turn retain next a b =
      (replaceLast a ra (joinBack ra.line rb.line) next, replaceFirst b rb (joinFront rb.line) (next + 1)) := by
    unfold join
    rw [hia, hib, hra, hrb]
    simp only [Bool.or_self, Bool.false_eq_true, if_false]
    rw [if_neg, if_neg]
    · rw [hra2, hrb2]
      unfold reverseAttaches
      rw [segs_last]
      intro hh
      apply hrev
      have hs : (segs (z :: w :: post)).head? = some (z, w) := by simp [segs]
      rw [hs] at hh
      simp only [Bool.and_eq_true, decide_eq_true_eq] at hh
      exact ⟨hh.1, hh.2.1.1, hh.2.1.2, hh.2.2⟩
    · rw [hra2, hrb2]
      simp
  rw [hj]
  have e1 := replaceLast_lines a ra (line := pre ++ [x, w]) (by simp) next
  have e2 := replaceFirst_lines b rb (if post = [] then [] else w :: post) (next + 1)
  simp only [hjb, hjf]
  refine ⟨e1.1, ?_, e1.2.trans hia, e2.2.trans hib⟩
  rw [e2.1]
  by_cases hp : post = [] <;> simp [hp]

/-- **C29, joining.**  Joining two routes, each connected in itself, skips the points where they meet: afterwards the
second follows the first without a gap, and the points are those of the first without the last followed by those of the
second without the first.  A reversal is left alone if it shall be retained. -/
theorem join_connects (G : Geo P R A) (turn : A → Bool) (retain : Bool) (next : Nat) {a b : Route P} (hj : Joinable a b)
    (hr : ¬ (retain = true ∧ Reversal G turn a b)) (ha : Connected a.lines) (hb : Connected b.lines) :
    Connected ((join G turn retain next a b).1.lines ++ (join G turn retain next a b).2.lines) ∧
    joined (nonempty ((join G turn retain next a b).1.lines ++ (join G turn retain next a b).2.lines)) =
      (joined (nonempty a.lines)).dropLast ++ (joined (nonempty b.lines)).tail := by
  obtain ⟨hia, hib, la, lb, hla, hlb, h2a, h2b⟩ := hj
  obtain ⟨pre, x, y, rfl⟩ := two_last h2a
  obtain ⟨z, w, post, rfl⟩ := two_first h2b
  have hrev : ¬ (retain = true ∧ x ≠ y ∧ z ≠ w ∧ turn (G.dir (G.az x y) (G.az z w)) = true) := by
    rintro ⟨h1, h2, h3, h4⟩
    exact hr ⟨h1, x, y, z, w, pre, post, hla, hlb, h2, h3, h4⟩
  obtain ⟨e1, e2, _, _⟩ := join_cases G turn retain next a b pre post x y z w hla hlb hia hib hrev
  rw [e1, e2]
  obtain ⟨as, has⟩ := List.getLast?_eq_some_iff.1 hla
  obtain ⟨bs, hbs⟩ : ∃ bs, b.lines = (z :: w :: post) :: bs := by
    cases hbl : b.lines with
    | nil => rw [hbl] at hlb; simp at hlb
    | cons l ls => rw [hbl] at hlb; simp at hlb; exact ⟨ls, by rw [hlb]⟩
  rw [has, hbs, List.dropLast_concat, List.tail_cons]
  rw [has] at ha
  rw [hbs] at hb
  unfold Connected at *
  have hnl : ∀ q : P, nonempty [pre ++ [x, q]] = [pre ++ [x, q]] := by
    intro q; rw [nonempty_cons, if_neg (by simp)]; rfl
  rw [nonempty_append, hnl] at ha
  rw [nonempty_cons, if_neg (by simp)] at hb
  have hA : (nonempty as ++ [pre ++ [x, w]]).IsChain Meets := by
    rw [List.isChain_append] at ha ⊢
    refine ⟨ha.1, List.isChain_singleton _, ?_⟩
    intro u hu v hv
    have := ha.2.2 u hu (pre ++ [x, y]) (by simp)
    simp only [List.head?_cons, Option.mem_def, Option.some.injEq] at hv
    subst hv
    rw [Meets] at this ⊢
    rw [this]
    cases pre <;> rfl
  have hB : ((nonempty ((if post = [] then [] else [w :: post]) ++ bs)).IsChain Meets) ∧
      (∀ v, (nonempty ((if post = [] then [] else [w :: post]) ++ bs)).head? = some v → v.head? = some w) := by
    by_cases hp : post = []
    · subst hp
      simp only [if_true, List.nil_append]
      refine ⟨hb.tail, ?_⟩
      intro v hv
      cases hn : nonempty bs with
      | nil => rw [hn] at hv; simp at hv
      | cons v' vs =>
        rw [hn, List.isChain_cons_cons] at hb
        rw [hn] at hv
        simp only [List.head?_cons, Option.some.injEq] at hv
        subst hv
        have : [z, w].getLast? = v'.head? := hb.1
        rw [← this]
        rfl
    · simp only [if_neg hp]
      rw [List.singleton_append, nonempty_cons, if_neg (by simp)]
      refine ⟨?_, by intro v hv; simp at hv; rw [← hv]; rfl⟩
      cases hn : nonempty bs with
      | nil => exact List.isChain_singleton _
      | cons v' vs =>
        rw [hn, List.isChain_cons_cons] at hb
        rw [List.isChain_cons_cons]
        refine ⟨?_, hb.2⟩
        have : (z :: w :: post).getLast? = v'.head? := hb.1
        rw [Meets, ← this]
        rw [List.getLast?_cons_cons]
  have hjoined : ∀ (u : List (List P)) (l : List P), joined (u ++ [l]) = joined u ++ (if u = [] then l else l.tail) := by
    intro u l
    cases u with
    | nil => simp [joined]
    | cons v vs => simp [joined]
  refine ⟨?_, ?_⟩
  · rw [nonempty_append, nonempty_append, hnl]
    refine chain_join hA hB.1 ?_
    intro u v hu hv
    rw [List.getLast?_append] at hu
    simp only [List.getLast?_singleton, Option.some_or, Option.some.injEq] at hu
    subst hu
    rw [Meets, hB.2 v hv]
    simp
  · rw [nonempty_append, nonempty_append, hnl, nonempty_append as, hnl]
    have hsplit : ∀ (u : List (List P)) (l : List P) (v : List (List P)),
        joined (u ++ [l] ++ v) = joined (u ++ [l]) ++ v.flatMap List.tail := by
      intro u l v
      cases u with
      | nil => simp [joined]
      | cons u0 us => simp [joined]
    rw [hsplit, hjoined, hjoined]
    have htail : (nonempty ((if post = [] then [] else [w :: post]) ++ bs)).flatMap List.tail =
        post ++ (nonempty bs).flatMap List.tail := by
      by_cases hp : post = []
      · subst hp; simp
      · simp only [if_neg hp]
        rw [List.singleton_append, nonempty_cons, if_neg (by simp)]
        simp
    rw [htail]
    have hjb : (joined (nonempty ((z :: w :: post) :: bs))).tail = w :: post ++ (nonempty bs).flatMap List.tail := by
      rw [nonempty_cons, if_neg (by simp)]
      simp [joined]
    rw [hjb]
    by_cases hu : nonempty as = []
    · simp only [hu, if_true, joined, List.nil_append]
      rw [show pre ++ [x, y] = (pre ++ [x]) ++ [y] by simp, List.dropLast_concat]
      simp
    · simp only [if_neg hu]
      cases pre with
      | nil =>
        simp only [List.nil_append, List.tail_cons]
        rw [List.dropLast_concat]
        simp
      | cons p ps =>
        simp only [List.cons_append, List.tail_cons]
        rw [show ps ++ [x, y] = (ps ++ [x]) ++ [y] by simp, ← List.append_assoc (joined (nonempty as)) (ps ++ [x]) [y], List.dropLast_concat]
        simp

/-- A retained reversal leaves both routes unchanged. -/
theorem join_retains (G : Geo P R A) (turn : A → Bool) (next : Nat) {a b : Route P} (hr : Reversal G turn a b) :
    join G turn true next a b = (a, b) := by
  obtain ⟨x, y, z, w, pre, post, ha, hb, h1, h2, h3⟩ := hr
  unfold Route.lines at ha hb
  rw [List.getLast?_map] at ha
  rw [List.head?_map] at hb
  obtain ⟨ra, hra, hra2⟩ := Option.map_eq_some_iff.1 ha
  obtain ⟨rb, hrb, hrb2⟩ := Option.map_eq_some_iff.1 hb
  unfold join
  split_ifs with h
  · rfl
  · rw [hra, hrb]
    simp only
    have hs : (segs (z :: w :: post)).head? = some (z, w) := by simp [segs]
    have : reverseAttaches G turn ra.line rb.line = true := by
      rw [hra2, hrb2]
      unfold reverseAttaches
      rw [segs_last, hs]
      simp [h1, h2, h3]
    split_ifs with h4 h5
    · rfl
    · rfl
    · simp [this] at h5

/-- A candidate left of a junction: the way through it is replaced by the direct way. -/
example : (join demoGeo (fun _ => false) true 20 demoA (Route.ofOwn [⟨15, [1, 2]⟩, ⟨16, [2, 3]⟩])).1.lines = [[5, 0], [0, 2]] ∧
    (join demoGeo (fun _ => false) true 20 demoA (Route.ofOwn [⟨15, [1, 2]⟩, ⟨16, [2, 3]⟩])).2.lines = [[2, 3]] ∧
    Joinable demoA (Route.ofOwn [⟨15, [1, 2]⟩, ⟨16, [2, 3]⟩]) ∧ Connected demoA.lines := by
  refine ⟨by decide, by decide, ⟨rfl, rfl, [0, 1], [1, 2], by decide, by decide, by decide, by decide⟩, ?_⟩
  simp [Connected, nonempty, demoA, Route.lines, Meets]

/-! ### Parts -/

theorem searchOwn_spec (r : Ref P) (own : List (Ref P)) :
    ((searchOwn r own).1 = none → True) ∧ (∀ o, (searchOwn r own).1 = some o → o ∈ own ∧ o.addr = r.addr) ∧
      (searchOwn r own).2.Sublist own := by
  induction own with
  | nil => simp [searchOwn]
  | cons o os ih =>
    rw [searchOwn]
    split_ifs with h
    · exact ⟨fun _ => trivial, fun o' ho => by simp at ho; subst ho; exact ⟨List.mem_cons_self, h⟩,
        List.sublist_cons_self _ _⟩
    · exact ⟨fun _ => trivial, fun o' ho => ⟨List.mem_cons_of_mem _ (ih.2.1 o' ho).1, (ih.2.1 o' ho).2⟩,
        ih.2.2.trans (List.sublist_cons_self _ _)⟩

theorem copyRefs_lines (refs : List (Ref P)) : ∀ (own : List (Ref P)) (acc : Acc P),
    (∀ o ∈ own, ∀ r ∈ refs, o.addr = r.addr → o = r) →
    (copyRefs own refs acc).refs.map Ref.line = acc.refs.map Ref.line ++ refs.map Ref.line ∧
    (acc.own.Sublist acc.refs → (copyRefs own refs acc).own.Sublist (copyRefs own refs acc).refs) := by
  induction refs with
  | nil => intro own acc _; simp [copyRefs]
  | cons r rs ih =>
    intro own acc h
    obtain ⟨_, hs, hsub⟩ := searchOwn_spec r own
    have hrest : ∀ o ∈ (searchOwn r own).2, ∀ x ∈ rs, o.addr = x.addr → o = x :=
      fun o ho x hx => h o (hsub.subset ho) x (List.mem_cons_of_mem _ hx)
    rw [copyRefs]
    cases hso : searchOwn r own with
    | mk fo os =>
      rw [hso] at hs hrest
      cases fo with
      | none =>
        simp only
        obtain ⟨h1, h2⟩ := ih os ⟨acc.own, acc.refs ++ [r], acc.next⟩ hrest
        refine ⟨by rw [h1]; simp, fun hh => h2 ?_⟩
        exact hh.trans (List.sublist_append_left _ _)
      | some o =>
        simp only
        obtain ⟨hmem, haddr⟩ := hs o rfl
        have hor : o = r := h o hmem r List.mem_cons_self haddr
        subst hor
        obtain ⟨h1, h2⟩ := ih os ⟨acc.own ++ [⟨acc.next, o.line⟩], acc.refs ++ [⟨acc.next, o.line⟩], acc.next + 1⟩ hrest
        refine ⟨by rw [h1]; simp, fun hh => h2 ?_⟩
        exact List.Sublist.append hh (List.Sublist.refl _)

/-- A part of a route has the lines of the part; parts out of range are refused. -/
theorem sub_route_lines {ext : Ref P → Prop} {next : Nat} {r : Route P} (hg : Good ext next r) (a b k : Nat) :
    (a ≤ b ∧ a < r.lines.length ∧ b ≤ r.lines.length →
      ∃ s, subRoute r a b k = .ok s ∧ s.lines = (r.lines.drop a).take (b - a)) ∧
    (¬ (a ≤ b ∧ a < r.lines.length ∧ b ≤ r.lines.length) → subRoute r a b k = .throws) := by
  have hlen : r.lines.length = r.refs.length := by simp [Route.lines]
  rw [hlen]
  refine ⟨?_, ?_⟩
  · intro hab
    have hown : ∀ o ∈ r.own, ∀ x ∈ (r.refs.drop a).take (b - a), o.addr = x.addr → o = x := by
      intro o ho x hx he
      have hxr : x ∈ r.refs := List.mem_of_mem_drop (List.mem_of_mem_take hx)
      have hxo : x ∈ r.own := by
        rw [← hg.order]
        exact List.mem_filter.2 ⟨hxr, by simpa [← he] using ⟨o, ho, rfl⟩⟩
      exact List.inj_on_of_nodup_map hg.nodup ho hxo he
    obtain ⟨h1, h2⟩ := copyRefs_lines ((r.refs.drop a).take (b - a)) r.own ⟨[], [], k⟩ hown
    rw [subRoute, if_pos hab, build, if_pos (found_spec _ _ ((h2 (List.Sublist.refl _)).map _))]
    refine ⟨_, rfl, ?_⟩
    have : (copyRefs r.own ((r.refs.drop a).take (b - a)) ⟨[], [], k⟩).refs.map Ref.line =
        ((r.refs.drop a).take (b - a)).map Ref.line := by rw [h1]; rfl
    unfold Route.lines
    rw [this, List.map_take, List.map_drop]
  · intro hab
    rw [subRoute, if_neg hab]

/-- A part of a merged route that has owned lines on both sides of one of the network: the second owned line is only
referenced, it is alive only as long as the whole route is. -/
theorem sub_route_dangling_fails : ∃ r s : Route Nat, Good demoExt 20 r ∧ subRoute r 0 3 20 = .ok s ∧
    s.lines = r.lines ∧ ∃ x ∈ s.refs, x ∉ s.own ∧ ¬ demoExt x := by
  refine ⟨⟨[⟨10, [5, 0]⟩, ⟨11, [1, 7]⟩], [⟨10, [5, 0]⟩, ⟨0, [0, 1]⟩, ⟨11, [1, 7]⟩], false⟩, _, ?_, rfl, by decide,
    ⟨11, [1, 7]⟩, by decide, by decide, by simp [demoExt]⟩
  exact ⟨by decide, by decide, by simp [demoExt], by decide⟩

/-- A part that begins and ends within the same line is refused although it is in range. -/
theorem sub_route_same_line_fails : ∃ r : Route Nat, Good demoExt 20 r ∧ inRange r 0 1 1 3 = true ∧
    r.lines = [[4, 5, 6, 7]] ∧ subRouteAt r 0 1 1 3 20 = .throws := by
  refine ⟨⟨[⟨10, [4, 5, 6, 7]⟩], [⟨10, [4, 5, 6, 7]⟩], false⟩, ?_, by decide, by decide, by decide⟩
  exact ⟨by decide, by decide, by simp, by decide⟩

/-! ### Cached values -/

/-- What the lines of a route give for a query. -/
def expected (G : Geo P R A) (ls : List (List P)) : Query → Outcome (Answer R A)
  | .connected => .ok (.yes (linesConnected ls))
  | .length => .ok (.len (cellOf (routeLength G ls)))
  | .azimuth => .ok (.angle (cellOf (routeAzimuth G ls)))
  | .directions => (routeDirections G id ls).map fun d => .angle (cellOf d)
  | .absolute => (routeDirections G G.abs ls).map fun d => .angle (cellOf d)

/-- All lines have at least two points. -/
def Long (ls : List (List P)) : Prop := ∀ l ∈ ls, 2 ≤ l.length

theorem jointDirection_ok (G : Geo P R A) (a : List P) {b : List P} (hb : 2 ≤ b.length) :
    ∃ d, jointDirection G a b = .ok d := by
  obtain ⟨x, y, post, rfl⟩ := two_first hb
  have hs : (segs (x :: y :: post)).head? = some (x, y) := by simp [segs]
  unfold jointDirection
  cases (segs a).getLast? with
  | none => exact ⟨_, rfl⟩
  | some s =>
    simp only [hs]
    split_ifs <;> exact ⟨_, rfl⟩

theorem directionTerms_ok (G : Geo P R A) (f : A → A) (ls : List (List P)) (h : Long ls) :
    ∃ ts, directionTerms G f ls = .ok ts := by
  induction ls with
  | nil => exact ⟨_, rfl⟩
  | cons a ls ih =>
    cases ls with
    | nil => exact ⟨_, rfl⟩
    | cons b ls =>
      obtain ⟨ts, hts⟩ := ih (fun l hl => h l (List.mem_cons_of_mem _ hl))
      obtain ⟨d, hd⟩ := jointDirection_ok G a (h b (by simp))
      rw [directionTerms, hd, hts]
      exact ⟨_, rfl⟩

theorem routeDirections_ok (G : Geo P R A) (f : A → A) (ls : List (List P)) (h : Long ls) :
    ∃ d, routeDirections G f ls = .ok d := by
  match ls with
  | [] => exact ⟨_, rfl⟩
  | [l] => exact ⟨_, rfl⟩
  | a :: b :: ls =>
    obtain ⟨ts, hts⟩ := directionTerms_ok G f (a :: b :: ls) h
    have : routeDirections G f (a :: b :: ls) = (directionTerms G f (a :: b :: ls)).map (sumTerms G) := rfl
    rw [this, hts]
    exact ⟨_, rfl⟩

structure Coh (G : Geo P R A) (l : Lazy P R A) : Prop where
  len : l.data.length = .uninit ∨ l.data.length = cellOf (routeLength G l.route.lines)
  az : l.data.azimuth = .uninit ∨ l.data.azimuth = cellOf (routeAzimuth G l.route.lines)
  dirs : (l.data.directions = .uninit ∧ l.data.absolute = .uninit) ∨
    (∃ d a, routeDirections G id l.route.lines = .ok d ∧ routeDirections G G.abs l.route.lines = .ok a ∧
      l.data.directions = cellOf d ∧ l.data.absolute = cellOf a ∧ l.data.connected = linesConnected l.route.lines)

theorem cellOf_init {α : Type} (o : Option α) : (cellOf o).isUninit = false := by cases o <;> rfl

variable [DecidableEq A]

theorem computeDirections_coh (G : Geo P R A) {l : Lazy P R A} (h : Coh G l) (hl : Long l.route.lines) :
    (computeDirections G l).2 = true ∧ (computeDirections G l).1.route = l.route ∧ Coh G (computeDirections G l).1 ∧
    ∃ d a, routeDirections G id l.route.lines = .ok d ∧ routeDirections G G.abs l.route.lines = .ok a ∧
      (computeDirections G l).1.data.directions = cellOf d ∧ (computeDirections G l).1.data.absolute = cellOf a ∧
      (computeDirections G l).1.data.connected = linesConnected l.route.lines := by
  unfold computeDirections
  rcases h.dirs with ⟨h1, h2⟩ | ⟨d, a, h1, h2, h3, h4, h5⟩
  · obtain ⟨d, hd⟩ := routeDirections_ok G id _ hl
    obtain ⟨a, ha⟩ := routeDirections_ok G G.abs _ hl
    rw [h1, hd, ha]
    simp only [Cell.isUninit, Bool.true_or, if_true]
    exact ⟨trivial, trivial, ⟨h.len, h.az, .inr ⟨d, a, hd, ha, rfl, rfl, rfl⟩⟩, d, a, rfl, rfl, rfl, rfl, trivial⟩
  · rw [if_neg (by rw [h3, h4, cellOf_init, cellOf_init]; simp)]
    exact ⟨rfl, rfl, h, d, a, h1, h2, h3, h4, h5⟩

theorem query_coh (G : Geo P R A) {l : Lazy P R A} (h : Coh G l) (hl : Long l.route.lines) (q : Query) :
    (query G l q).1 = expected G l.route.lines q ∧ Coh G (query G l q).2 ∧ (query G l q).2.route = l.route := by
  cases q with
  | length =>
    simp only [query, expected, computeLength]
    split_ifs with hu
    · exact ⟨rfl, ⟨.inr rfl, h.az, h.dirs⟩, rfl⟩
    · rcases h.len with h1 | h1
      · rw [h1] at hu; simp [Cell.isUninit] at hu
      · exact ⟨by rw [h1], h, rfl⟩
  | azimuth =>
    simp only [query, expected, computeAzimuth]
    split_ifs with hu
    · exact ⟨rfl, ⟨h.len, .inr rfl, h.dirs⟩, rfl⟩
    · rcases h.az with h1 | h1
      · rw [h1] at hu; simp [Cell.isUninit] at hu
      · exact ⟨by rw [h1], h, rfl⟩
  | connected =>
    obtain ⟨h1, h2, h3, d, a, h4, h5, h6, h7, h8⟩ := computeDirections_coh G h hl
    simp only [query, h1, if_true, expected, h8]
    exact ⟨trivial, h3, h2⟩
  | directions =>
    obtain ⟨h1, h2, h3, d, a, h4, h5, h6, h7, h8⟩ := computeDirections_coh G h hl
    simp only [query, h1, if_true, expected, h6, h4, Outcome.map_ok]
    exact ⟨trivial, h3, h2⟩
  | absolute =>
    obtain ⟨h1, h2, h3, d, a, h4, h5, h6, h7, h8⟩ := computeDirections_coh G h hl
    simp only [query, h1, if_true, expected, h7, h5, Outcome.map_ok]
    exact ⟨trivial, h3, h2⟩

/-- Routes with cached values that result from a history of building, querying and merging. -/
inductive Reach (G : Geo P R A) : Lazy P R A → Prop where
  | new (r : Route P) : Reach G ⟨r, Data.new⟩
  | query {l : Lazy P R A} (q : Query) : Reach G l → Long l.route.lines → Reach G (query G l q).2
  | merge {rs : List (Lazy P R A)} {l : Lazy P R A} (connect except : Bool) (next : Nat) : (∀ r ∈ rs, Reach G r) →
      Lazy.merge connect except next rs = .ok l → Reach G l

theorem reach_coh (G : Geo P R A) {l : Lazy P R A} (h : Reach G l) : Coh G l := by
  induction h with
  | new r => exact ⟨.inl rfl, .inl rfl, .inl ⟨rfl, rfl⟩⟩
  | query q _ hl ih => exact (query_coh G ih hl q).2.1
  | @merge rs l connect except next _ hm _ =>
    unfold Lazy.merge at hm
    cases hr : Route.merge connect except next (rs.map Lazy.route) with
    | ok r =>
      rw [hr] at hm
      simp only [Outcome.map_ok, Outcome.ok.injEq] at hm
      subst hm
      exact ⟨.inl rfl, .inl rfl, .inl ⟨rfl, rfl⟩⟩
    | throws => rw [hr] at hm; simp at hm
    | ub => rw [hr] at hm; simp at hm

/-- **C29, cached values.**  After any history of building, querying and merging, each query is answered by the value that
the lines of the route give.
Missing from the full property: lines with a single point (`single_point_fails`) and joining (`join_stale_fails`). -/
theorem cached_values_partial (G : Geo P R A) {l : Lazy P R A} (h : Reach G l) (hl : Long l.route.lines) (q : Query) :
    (query G l q).1 = expected G l.route.lines q :=
  (query_coh G (reach_coh G h) hl q).1

/-- A merged route that has been asked before. -/
example : ∃ l : Lazy Nat Nat Nat, Reach demoGeo l ∧ Long l.route.lines ∧ l.data.length = .val 7 ∧
    l.route.lines = [[5, 0], [0, 1], [1, 2]] ∧ (query demoGeo l .length).1 = .ok (.len (.val 7)) ∧
    (query demoGeo l .connected).1 = .ok (.yes true) := by
  have h1 : Reach demoGeo (⟨demoA, Data.new⟩ : Lazy Nat Nat Nat) := .new _
  have h2 : Reach demoGeo (⟨Route.ofRefs [⟨1, [1, 2]⟩], Data.new⟩ : Lazy Nat Nat Nat) := .new _
  have h3 : Reach demoGeo (⟨⟨[⟨20, [5, 0]⟩], [⟨20, [5, 0]⟩, ⟨0, [0, 1]⟩, ⟨1, [1, 2]⟩], false⟩, Data.new⟩ : Lazy Nat Nat Nat) := by
    refine .merge (rs := [⟨demoA, Data.new⟩, ⟨Route.ofRefs [⟨1, [1, 2]⟩], Data.new⟩]) false false 20 ?_ rfl
    intro r hr
    simp only [List.mem_cons, List.not_mem_nil, or_false] at hr
    rcases hr with rfl | rfl
    · exact h1
    · exact h2
  refine ⟨_, .query .length h3 ?_, ?_, by decide, by decide, by decide, by decide⟩
  · simp [Long, Route.lines]
  · simp [Long, Route.lines, query, computeLength, Data.new, Cell.isUninit]

/-- **C29 fails**: joining does not reset the cached values; the first route answers with the length it had before. -/
theorem join_stale_fails : ∃ a b : Lazy Nat Nat Nat, Reach demoGeo a ∧ Reach demoGeo b ∧
    (Lazy.join demoGeo (fun _ => false) true 20 a b).1.route.lines = [[5, 0], [0, 9]] ∧
    (query demoGeo (Lazy.join demoGeo (fun _ => false) true 20 a b).1 .length).1 = .ok (.len (.val 6)) ∧
    routeLength demoGeo [[5, 0], [0, 9]] = some 14 := by
  have h1 : Reach demoGeo (⟨demoA, Data.new⟩ : Lazy Nat Nat Nat) := .new _
  refine ⟨_, ⟨Route.ofOwn [⟨15, [1, 9]⟩], Data.new⟩, .query .length h1 ?_, .new _, by decide, by decide, by decide⟩
  simp [Long, Route.lines, demoA]

/-- **C29 fails**: a line with a single point behind a line that meets it makes `is_connected` throw; asked again, it
answers. -/
theorem single_point_fails : ∃ r : Route Nat, Connected r.lines ∧ r.isConnected = true ∧
    (query demoGeo (⟨r, Data.new⟩ : Lazy Nat Nat Nat) .connected).1 = .throws ∧
    (query demoGeo (query demoGeo (⟨r, Data.new⟩ : Lazy Nat Nat Nat) .connected).2 .connected).1 = .ok (.yes true) := by
  refine ⟨Route.ofRefs [⟨0, [0, 1]⟩, ⟨5, [1]⟩], ?_, by decide, by decide, by decide⟩
  simp [Connected, nonempty, Route.ofRefs, Route.lines, Meets]

/-- **C29 fails**: asked again after that, the answer is about the lines up to the one with a single point; a route with a gap behind it
counts as connected. -/
theorem gap_behind_fails : ∃ r : Route Nat, ¬ Connected r.lines ∧ r.isConnected = false ∧
    (query demoGeo (⟨r, Data.new⟩ : Lazy Nat Nat Nat) .connected).1 = .throws ∧
    (query demoGeo (query demoGeo (⟨r, Data.new⟩ : Lazy Nat Nat Nat) .connected).2 .connected).1 = .ok (.yes true) := by
  refine ⟨Route.ofRefs [⟨0, [0, 1]⟩, ⟨5, [1]⟩, ⟨7, [7, 8]⟩], ?_, by decide, by decide, by decide⟩
  simp [Connected, nonempty, Route.ofRefs, Route.lines, Meets]

theorem until_of_connected [DecidableEq A] (G : Geo P R A) : ∀ ls : List (List P), linesConnected ls = true → connectedUntil G ls = true := by
  intro ls
  induction ls with
  | nil => intro _; rfl
  | cons a ls ih =>
    intro h
    cases ls with
    | nil => rfl
    | cons b rest =>
      rw [linesConnected, Bool.and_eq_true] at h
      rw [connectedUntil, h.1, Bool.true_and]
      split_ifs
      · rfl
      · exact ih h.2

/-- **C29.**  Asked again after an exception, `is_connected` answers; it does not deny that a connected route is connected. -/
theorem asked_again [DecidableEq A] (G : Geo P R A) (r : Route P)
    (h : (query G (⟨r, Data.new⟩ : Lazy P R A) .connected).1 = .throws) :
    ∃ b, (query G (query G (⟨r, Data.new⟩ : Lazy P R A) .connected).2 .connected).1 = .ok (.yes b) ∧ (r.isConnected = true → b = true) := by
  refine ⟨connectedUntil G r.lines, ?_, until_of_connected G r.lines⟩
  unfold query at h ⊢
  unfold computeDirections at h ⊢
  simp only [Data.new, Cell.isUninit, Bool.or_self, if_true] at h ⊢
  cases h1 : routeDirections G id r.lines <;> cases h2 : routeDirections G G.abs r.lines <;> simp_all

example : (query demoGeo (⟨Route.ofRefs [⟨3, []⟩, ⟨0, [0, 1]⟩, ⟨5, [1]⟩], Data.new⟩ : Lazy Nat Nat Nat) .connected).1 = .throws := by decide
/-! ### The line of a route with gaps -/

/-- Lines one after the other, each without its first point if that is where the one before ended. -/
def sewn : List P → List (List P) → List P
  | acc, [] => acc
  | acc, l :: ls => sewn (if acc.getLast? = l.head? then acc ++ l.tail else acc ++ l) ls

theorem attachGaps_spec {ls : List (List P)} (hne : ∀ l ∈ ls, l ≠ []) : (∀ l ∈ attachGaps ls, l ≠ []) ∧ (attachGaps ls).IsChain Meets ∧
    (attachGaps ls).head? = ls.head? ∧
    ∀ acc : List P, acc ≠ [] → (∀ a, ls.head? = some a → acc.getLast? = a.getLast?) →
      acc ++ ((attachGaps ls).tail.map List.tail).flatten = sewn acc ls.tail := by
  induction ls with
  | nil => simp [attachGaps, sewn]
  | cons a ls ih =>
    cases ls with
    | nil => simp [attachGaps, sewn]; exact hne a List.mem_cons_self
    | cons b ls =>
      have ha := hne a List.mem_cons_self
      have hb := hne b (by simp)
      obtain ⟨h1, h2, h3, h4⟩ := ih (fun l hl => hne l (List.mem_cons_of_mem _ hl))
      obtain ⟨q, rest, rfl⟩ := List.exists_cons_of_ne_nil hb
      have hl : a.getLast? = some (a.getLast ha) := List.getLast?_eq_getLast_of_ne_nil ha
      cases hcs : attachGaps ((q :: rest) :: ls) with
      | nil => rw [hcs] at h3; simp at h3
      | cons c cs =>
        rw [hcs] at h1 h2 h3 h4
        simp only [List.head?_cons, Option.some.injEq] at h3
        subst h3
        simp only [List.tail_cons] at h4
        have hlast : ∀ acc : List P, (acc ++ (q :: rest)).getLast? = (q :: rest).getLast? := by
          intro acc
          rw [List.getLast?_append, List.getLast?_cons]
          rfl
        by_cases hg : gap a (q :: rest) = true
        · have he : attachGaps (a :: (q :: rest) :: ls) = a :: [a.getLast ha, q] :: (q :: rest) :: cs := by
            rw [attachGaps, hg, hl, hcs]; rfl
          have hm : ¬ Meets a (q :: rest) := fun h => by rw [(gap_iff ha hb).2 h] at hg; cases hg
          rw [he]
          refine ⟨?_, ?_, rfl, ?_⟩
          · intro l hl'
            rcases List.mem_cons.1 hl' with rfl | hl'
            · exact ha
            · rcases List.mem_cons.1 hl' with rfl | hl'
              · simp
              · exact h1 l hl'
          · rw [List.isChain_cons_cons, List.isChain_cons_cons]
            exact ⟨by simp [Meets, hl], by simp [Meets], h2⟩
          · intro acc hacc hla
            have hla := hla a rfl
            simp only [List.tail_cons, sewn]
            rw [if_neg (by rw [hla]; exact hm)]
            rw [← h4 (acc ++ (q :: rest)) (by simp) (by intro x hx; simp at hx; rw [← hx]; exact hlast acc)]
            simp
        · have hg' : gap a (q :: rest) = false := by simpa using hg
          have he : attachGaps (a :: (q :: rest) :: ls) = a :: (q :: rest) :: cs := by rw [attachGaps, hg', hcs]
          have hm := (gap_iff ha hb).1 hg'
          rw [he]
          refine ⟨?_, ?_, rfl, ?_⟩
          · intro l hl'
            rcases List.mem_cons.1 hl' with rfl | hl'
            · exact ha
            · exact h1 l hl'
          · rw [List.isChain_cons_cons]; exact ⟨hm, h2⟩
          · intro acc hacc hla
            have hla' := hla a rfl
            simp only [List.tail_cons, sewn]
            rw [if_pos (by rw [hla']; exact hm)]
            rw [← h4 (acc ++ rest) (by simp [hacc]) ?_]
            · simp
            · intro x hx
              simp at hx
              rw [← hx]
              cases rest with
              | nil =>
                rw [List.append_nil, hla']
                exact hm
              | cons r rs =>
                rw [List.getLast?_append, List.getLast?_cons_cons, List.getLast?_cons]
                rfl

/-- **C29, the line of a route.**  Also with gaps there is always a line, through the points of all lines of the route in order, where
a line starting at the point just reached does not repeat it; gaps are bridged straight. -/
theorem rich_line_always (r : Route P) : r.richLine = .ok (sewn [] (nonempty r.lines)) := by
  unfold Route.richLine
  rw [filter_nonempty]
  obtain ⟨h1, h2, h3, h4⟩ := attachGaps_spec (nonempty_all r.lines)
  have hn : nonempty ([] :: attachGaps (nonempty r.lines)) = attachGaps (nonempty r.lines) := by
    rw [nonempty_cons, if_pos rfl]
    unfold nonempty at h1 ⊢
    rw [List.filter_eq_self]
    intro l hl
    simpa using h1 l hl
  rw [(merge_concat [] (attachGaps (nonempty r.lines))).1 (by rw [hn]; exact h2), hn]
  cases hls : nonempty r.lines with
  | nil => rfl
  | cons a ls =>
    have ha : a ≠ [] := nonempty_all r.lines a (by rw [hls]; exact List.mem_cons_self)
    rw [hls] at h3 h4
    have h5 := h4 a ha (by intro x hx; simp at hx; rw [hx])
    cases hc : attachGaps (a :: ls) with
    | nil => rw [hc] at h3; simp at h3
    | cons c cs =>
      rw [hc] at h3 h5
      simp only [List.head?_cons, Option.some.injEq] at h3
      subst h3
      obtain ⟨q, rest, rfl⟩ := List.exists_cons_of_ne_nil ha
      simp only [List.tail_cons] at h5
      simp only [sewn, List.getLast?_nil, List.head?_cons, reduceCtorEq, if_false, List.nil_append]
      rw [← h5]
      simp only [joined, List.flatMap_def]

example : (Route.ofRefs [⟨1, [0, 4]⟩, ⟨2, []⟩, ⟨3, [4, 9]⟩, ⟨4, [7, 5]⟩] : Route Nat).richLine = .ok [0, 4, 9, 7, 5] := by decide

end MM.Route
