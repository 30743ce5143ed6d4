import Verif.Props.Route

/-!
# C29: values of connected routes and parts of routes by positions
-/

set_option autoImplicit false
set_option linter.unusedSectionVars false

namespace MM.Route

open MM.Line

variable {P : Type} [DecidableEq P] {R A : Type}

/-! ### Segments of joined lines -/

theorem joined_cons2 (a b : List P) (ls : List (List P)) (hb : b ≠ []) :
    joined (a :: b :: ls) = a ++ (joined (b :: ls)).tail := by
  obtain ⟨q, rest, rfl⟩ := List.exists_cons_of_ne_nil hb
  simp [joined]

theorem segs_glue {a b : List P} (ha : a ≠ []) (hb : b ≠ []) (h : Meets a b) : segs (a ++ b.tail) = segs a ++ segs b :=
  segs_merge (mergeSingle_meets ha hb h)

theorem joined_ne {b : List P} (ls : List (List P)) (hb : b ≠ []) : joined (b :: ls) ≠ [] := by
  simp [joined, hb]

theorem meets_joined {a b : List P} (ls : List (List P)) (hb : b ≠ []) (h : Meets a b) : Meets a (joined (b :: ls)) := by
  obtain ⟨q, rest, rfl⟩ := List.exists_cons_of_ne_nil hb
  simpa [Meets, joined] using h

theorem segs_joined (ls : List (List P)) (hne : ∀ l ∈ ls, l ≠ []) (hc : ls.IsChain Meets) :
    segs (joined ls) = ls.flatMap segs := by
  induction ls with
  | nil => rfl
  | cons a ls ih =>
    cases ls with
    | nil => simp [joined]
    | cons b ls =>
      rw [List.isChain_cons_cons] at hc
      have hb : b ≠ [] := hne b (by simp)
      rw [joined_cons2 a b ls hb, segs_glue (hne a (by simp)) (joined_ne ls hb) (meets_joined ls hb hc.1),
        ih (fun l hl => hne l (List.mem_cons_of_mem _ hl)) hc.2]
      simp

/-! ### Values -/

/-- The directions at the inner points of a line, where the segments on both sides have a length. -/
def turns (G : Geo P R A) (pts : List P) : List A :=
  ((segs pts).zip (segs pts).tail).filterMap fun s =>
    if s.1.1 = s.1.2 ∨ s.2.1 = s.2.2 then none else some (G.dir (G.az s.1.1 s.1.2) (G.az s.2.1 s.2.2))

/-- The lengths of the segments of a line that have one. -/
def lengths (G : Geo P R A) (pts : List P) : List R :=
  ((segs pts).filter (fun s => decide (s.1 ≠ s.2))).map fun s => G.len s.1 s.2

/-- The sum, if there are summands. -/
def total {M : Type} [AddCommMonoid M] (l : List M) : Option M := if l = [] then none else some l.sum

/-- Numbers are added by `+`. -/
structure Exact [AddCommMonoid R] [AddCommMonoid A] (G : Geo P R A) : Prop where
  zeroR : G.zeroR = 0
  addR : G.addR = (· + ·)
  zeroA : G.zeroA = 0
  addA : G.addA = (· + ·)

/-- What the points along a route give for a query. -/
def along [AddCommMonoid R] [AddCommMonoid A] (G : Geo P R A) (pts : List P) : Query → Answer R A
  | .connected => .yes true
  | .length => .len (cellOf (total (lengths G pts)))
  | .azimuth => .angle (cellOf (match pts.head?, pts.getLast? with
    | some p, some q => if p = q then none else some (G.az p q)
    | _, _ => none))
  | .directions => .angle (cellOf (total (turns G pts)))
  | .absolute => .angle (cellOf (total ((turns G pts).map G.abs)))

theorem plainDirections_total [AddCommMonoid R] [AddCommMonoid A] {G : Geo P R A} (hG : Exact G) (f : A → A) (l : List P) :
    plainDirections G f l = total ((turns G l).map f) := by
  have hf : ∀ (ds : List A) (a : A), ds.foldl (fun acc d => G.addA acc (f d)) a = a + (ds.map f).sum := by
    intro ds
    induction ds with
    | nil => intro a; simp
    | cons d ds ih => intro a; rw [List.foldl_cons, ih, hG.addA, List.map_cons, List.sum_cons]; exact add_assoc _ _ _
  unfold plainDirections total
  have ht : ((segs l).zip (segs l).tail).filterMap (plainDirectionAt G) = turns G l := rfl
  rw [ht, hf, hG.zeroA, zero_add]
  by_cases h : turns G l = []
  · simp [h]
  · simp [h]

theorem total_length [AddCommMonoid R] [AddCommMonoid A] {G : Geo P R A} (hG : Exact G) (ls : List (List P))
    (hne : ∀ l ∈ ls, l ≠ []) (hc : ls.IsChain Meets) : routeLength G ls = total (lengths G (joined ls)) := by
  have h1 := routeLength_sum ⟨hG.zeroR, hG.addR⟩ ls
  have h2 := routeLength_isSome G ls
  have h3 : segmentSum G.len ls = (lengths G (joined ls)).sum := by
    unfold segmentSum lengths
    rw [segs_joined ls hne hc]
  have h4 : (∃ l ∈ ls, ∃ s ∈ segs l, s.1 ≠ s.2) ↔ lengths G (joined ls) ≠ [] := by
    unfold lengths
    rw [segs_joined ls hne hc, Ne, List.map_eq_nil_iff, List.filter_eq_nil_iff]
    push Not
    simp only [List.mem_flatMap, decide_eq_true_eq]
    constructor
    · rintro ⟨l, hl, s, hs, h⟩
      exact ⟨s, ⟨l, hl, hs⟩, h⟩
    · rintro ⟨s, ⟨l, hl, hs⟩, h⟩
      exact ⟨l, hl, s, hs, h⟩
  rw [h4] at h2
  unfold total
  split_ifs with h
  · cases hr : routeLength G ls with
    | none => rfl
    | some v => rw [hr] at h2; simp [h] at h2
  · cases hr : routeLength G ls with
    | none => rw [hr] at h2; simp [h] at h2
    | some v => rw [hr, h3] at h1; simpa using h1

theorem total_azimuth (G : Geo P R A) (ls : List (List P)) (hne : ∀ l ∈ ls, l ≠ []) (hc : ls.IsChain Meets) :
    routeAzimuth G ls = match (joined ls).head?, (joined ls).getLast? with
    | some p, some q => if p = q then none else some (G.az p q)
    | _, _ => none := by
  match ls, hne, hc with
  | [], _, _ => rfl
  | [l], _, _ =>
    have hj : joined [l] = l := by simp [joined]
    rw [hj, routeAzimuth, plainAzimuth]
    cases l.head? <;> cases l.getLast? <;> rfl
  | a :: b :: ls, hne, hc =>
    have hfirst : (a :: b :: ls).find? (fun l => !l.isEmpty) = some a := by
      rw [List.find?_cons_of_pos]
      have := hne a (by simp)
      simpa using this
    obtain ⟨x, hx⟩ : ∃ x, (a :: b :: ls).getLast? = some x := ⟨_, List.getLast?_eq_getLast_of_ne_nil (by simp)⟩
    have hlast : (a :: b :: ls).reverse.find? (fun l => !l.isEmpty) = some x := by
      obtain ⟨ys, hys⟩ : ∃ ys, (a :: b :: ls).reverse = x :: ys := by
        have : (a :: b :: ls).reverse.head? = some x := by rw [List.head?_reverse, hx]
        exact ⟨_, (List.eq_cons_of_mem_head? this)⟩
      rw [hys, List.find?_cons_of_pos]
      have := hne x (List.mem_of_getLast? hx)
      simpa using this
    rw [joined_head? (a :: b :: ls) hne rfl, joined_getLast? (a :: b :: ls) hc hne hx]
    have : routeAzimuth G (a :: b :: ls) = endsAzimuth G (a :: b :: ls) := rfl
    rw [this, endsAzimuth, hfirst, hlast]
    rfl

theorem zip_tail_append {S T : List (P × P)} {s t : P × P} (hs : S.getLast? = some s) (ht : T.head? = some t) :
    (S ++ T).zip (S ++ T).tail = S.zip S.tail ++ (s, t) :: T.zip T.tail := by
  induction S with
  | nil => simp at hs
  | cons x S ih =>
    cases S with
    | nil =>
      simp only [List.getLast?_singleton, Option.some.injEq] at hs
      subst hs
      obtain ⟨T', rfl⟩ : ∃ T', T = t :: T' := ⟨_, List.eq_cons_of_mem_head? ht⟩
      simp
    | cons y S =>
      rw [List.getLast?_cons_cons] at hs
      have := ih hs
      simp only [List.cons_append, List.tail_cons, List.zip_cons_cons] at this ⊢
      rw [this]

theorem segs_head_ne {l : List P} (h : 2 ≤ l.length) : ∃ s, (segs l).head? = some s := by
  obtain ⟨x, y, post, rfl⟩ := two_first h
  exact ⟨(x, y), by simp [segs]⟩

theorem turns_glue (G : Geo P R A) {a j : List P} {s t : P × P} (ha : a ≠ []) (hj : j ≠ []) (h : Meets a j)
    (hs : (segs a).getLast? = some s) (ht : (segs j).head? = some t) :
    turns G (a ++ j.tail) = turns G a ++ ((if s.1 = s.2 ∨ t.1 = t.2 then none
      else some (G.dir (G.az s.1 s.2) (G.az t.1 t.2))).toList ++ turns G j) := by
  unfold turns
  rw [segs_glue ha hj h, zip_tail_append hs ht, List.filterMap_append, List.filterMap_cons]
  congr 1
  simp only
  split_ifs <;> rfl

theorem segs_head_joined {b : List P} (ls : List (List P)) (hb : 2 ≤ b.length) :
    (segs (joined (b :: ls))).head? = (segs b).head? := by
  obtain ⟨x, y, post, rfl⟩ := two_first hb
  simp [segs, joined]

theorem total_toList {M : Type} [AddCommMonoid M] (l : List M) :
    (total l).toList.sum = l.sum ∧ ((total l).toList = [] ↔ l = []) := by
  unfold total
  by_cases h : l = []
  · simp [h]
  · simp [h]

theorem directionTerms_total [AddCommMonoid R] [AddCommMonoid A] {G : Geo P R A} (hG : Exact G) (f : A → A)
    (ls : List (List P)) (hl : Long ls) (hc : ls.IsChain Meets) :
    ∃ ts, directionTerms G f ls = .ok ts ∧ ts.sum = ((turns G (joined ls)).map f).sum ∧
      (ts = [] ↔ turns G (joined ls) = []) := by
  induction ls with
  | nil => exact ⟨[], rfl, by simp [joined, turns, segs], by simp [joined, turns, segs]⟩
  | cons a ls ih =>
    cases ls with
    | nil =>
      refine ⟨_, rfl, ?_⟩
      rw [plainDirections_total hG]
      obtain ⟨h1, h2⟩ := total_toList ((turns G a).map f)
      have hj : joined [a] = a := by simp [joined]
      rw [hj]
      exact ⟨h1, by rw [h2, List.map_eq_nil_iff]⟩
    | cons b ls =>
      rw [List.isChain_cons_cons] at hc
      have ha2 : 2 ≤ a.length := hl a (by simp)
      have hb2 : 2 ≤ b.length := hl b (by simp)
      have ha : a ≠ [] := by rintro rfl; simp at ha2
      have hb : b ≠ [] := by rintro rfl; simp at hb2
      obtain ⟨ts, h1, h2, h3⟩ := ih (fun l h => hl l (List.mem_cons_of_mem _ h)) hc.2
      obtain ⟨pre, x, y, hxy⟩ := two_last ha2
      have hs : (segs a).getLast? = some (x, y) := by rw [hxy]; exact segs_last pre x y
      obtain ⟨t, ht⟩ := segs_head_ne hb2
      have hatt : attaches a b = true := (meets_iff ha hb).1 hc.1
      have hjd : jointDirection G a b = .ok (if x = y ∨ t.1 = t.2 then none
          else some (G.dir (G.az x y) (G.az t.1 t.2))) := by
        unfold jointDirection
        rw [hs, ht, hatt]
        by_cases hxy' : x = y
        · simp [hxy']
        · by_cases htt : t.1 = t.2 <;> simp [hxy', htt]
      have hterms : directionTerms G f (a :: b :: ls) = (jointDirection G a b).bind fun j =>
          (directionTerms G f (b :: ls)).map fun ts => (j.map f).toList ++ ((plainDirections G f a).toList ++ ts) := rfl
      have hglue := turns_glue G (j := joined (b :: ls)) ha (joined_ne ls hb) (meets_joined ls hb hc.1) hs
        ((segs_head_joined ls hb2).trans ht)
      rw [hterms, hjd, h1, joined_cons2 a b ls hb, hglue]
      refine ⟨_, rfl, ?_, ?_⟩
      · obtain ⟨h4, _⟩ := total_toList ((turns G a).map f)
        rw [plainDirections_total hG]
        simp only [List.sum_append, List.map_append, h4, h2]
        split_ifs
        · simp
        · simp only [Option.map_some, Option.toList_some, List.sum_cons, List.sum_nil, add_zero, List.map_cons, List.map_nil]
          exact add_left_comm _ _ _
      · obtain ⟨_, h5⟩ := total_toList ((turns G a).map f)
        rw [plainDirections_total hG]
        simp only [List.append_eq_nil_iff, h5, h3, List.map_eq_nil_iff]
        split_ifs <;> simp

theorem total_directions [AddCommMonoid R] [AddCommMonoid A] {G : Geo P R A} (hG : Exact G) (f : A → A)
    (ls : List (List P)) (hl : Long ls) (hc : ls.IsChain Meets) :
    routeDirections G f ls = .ok (total ((turns G (joined ls)).map f)) := by
  match ls, hl, hc with
  | [], _, _ => simp [routeDirections, joined, turns, segs, total]
  | [l], _, _ => simp [routeDirections, joined, plainDirections_total hG]
  | a :: b :: ls, hl, hc =>
    obtain ⟨ts, h1, h2, h3⟩ := directionTerms_total hG f (a :: b :: ls) hl hc
    have : routeDirections G f (a :: b :: ls) = (directionTerms G f (a :: b :: ls)).map (sumTerms G) := rfl
    rw [this, h1, Outcome.map_ok]
    congr 1
    unfold sumTerms total
    have hf : ts.foldl G.addA G.zeroA = ts.sum := by
      rw [hG.addA, hG.zeroA, foldl_add, zero_add]
    rw [hf, h2]
    by_cases h : turns G (joined (a :: b :: ls)) = []
    · simp [h, h3.2 h]
    · have : ts ≠ [] := fun hh => h (h3.1 hh)
      simp [h, this]

variable [DecidableEq A]

/-- **C29, values of connected routes.**  After any history of building, querying and merging, a connected route answers
every query with the value that the points along it give: the sum of the lengths of the segments, the azimuth from the first
to the last point, and the sums of the directions at the inner points, joints of lines included (exact arithmetic). -/
theorem connected_values [AddCommMonoid R] [AddCommMonoid A] {G : Geo P R A} (hG : Exact G) {l : Lazy P R A}
    (h : Reach G l) (hl : Long l.route.lines) (hc : l.route.lines.IsChain Meets) (q : Query) :
    l.route.richLine = .ok (joined l.route.lines) ∧ (query G l q).1 = .ok (along G (joined l.route.lines) q) := by
  have hne : ∀ x ∈ l.route.lines, x ≠ [] := by
    rintro x hx rfl
    have := hl [] hx
    simp at this
  have hn : nonempty l.route.lines = l.route.lines := List.filter_eq_self.2 (fun x hx => by simpa using hne x hx)
  refine ⟨?_, ?_⟩
  · have := richLine_connected (r := l.route) (by unfold Connected; rw [hn]; exact hc)
    rwa [hn] at this
  · rw [cached_values_partial G h hl q]
    cases q with
    | connected => simp [expected, along, (connected_iff hne).2 hc]
    | length => simp [expected, along, total_length hG _ hne hc]
    | azimuth => simp only [expected, along, total_azimuth G _ hne hc]
    | directions => simp [expected, along, total_directions hG id _ hl hc]
    | absolute => simp [expected, along, total_directions hG G.abs _ hl hc]

/-- Three lines with a repeated point; the point of the joints counts once. -/
example : Exact demoGeo ∧ Reach demoGeo (⟨Route.ofRefs [⟨0, [0, 3]⟩, ⟨1, [3, 3, 5]⟩, ⟨2, [5, 4]⟩], Data.new⟩ : Lazy Nat Nat Nat) ∧
    along demoGeo [0, 3, 3, 5, 4] .length = .len (.val 6) ∧ along demoGeo [0, 3, 3, 5, 4] .azimuth = .angle (.val 4) ∧
    along demoGeo [0, 3, 3, 5, 4] .directions = .angle (.val 809) := by
  exact ⟨⟨rfl, rfl, rfl, rfl⟩, .new _, by decide, by decide, by decide⟩

/-! ### Parts by positions -/

theorem copyRefs_good {ext : Ref P → Prop} {base : Nat} (refs : List (Ref P)) : ∀ (own : List (Ref P)) (acc : Acc P),
    AccGood ext base acc → (∀ x ∈ refs, ext x ∧ x.addr < base) → AccGood ext base (copyRefs own refs acc) := by
  induction refs with
  | nil => intro own acc h _; cases own <;> exact h
  | cons r rs ih =>
    intro own acc h hx
    rw [copyRefs]
    have hrest : ∀ x ∈ rs, ext x ∧ x.addr < base := fun x h => hx x (List.mem_cons_of_mem _ h)
    cases hs : searchOwn r own with
    | mk o os =>
      cases o with
      | some o => exact ih _ _ (h.snoc_new o.line) hrest
      | none => exact ih _ _ (h.snoc_ext (hx r (by simp)).1 (hx r (by simp)).2) hrest

theorem copyRefs_next (refs : List (Ref P)) : ∀ (own : List (Ref P)) (acc : Acc P),
    (copyRefs own refs acc).next ≤ acc.next + refs.length := by
  induction refs with
  | nil => intro own acc; cases own <;> simp [copyRefs]
  | cons r rs ih =>
    intro own acc
    rw [copyRefs]
    cases hs : searchOwn r own with
    | mk o os =>
      cases o with
      | some o => have := ih os ⟨acc.own ++ [⟨acc.next, o.line⟩], acc.refs ++ [⟨acc.next, o.line⟩], acc.next + 1⟩; simp only [List.length_cons] at this ⊢; omega
      | none => have := ih os ⟨acc.own, acc.refs ++ [r], acc.next⟩; simp only [List.length_cons] at this ⊢; omega

theorem Good.mono {ext : Ref P → Prop} {m n : Nat} {r : Route P} (h : Good ext m r) (hmn : m ≤ n) : Good ext n r :=
  ⟨h.nodup, h.order, h.alive, fun x hx => Nat.lt_of_lt_of_le (h.below x hx) hmn⟩

/-- Lines that live as long as the route: those outside and its own. -/
def Alive (ext : Ref P → Prop) (r : Route P) (x : Ref P) : Prop := ext x ∨ x ∈ r.own

theorem subRoute_good {ext : Ref P → Prop} {next : Nat} {r : Route P} (hg : Good ext next r) {a b k : Nat} (hk : next ≤ k)
    (hab : a ≤ b ∧ a < r.lines.length ∧ b ≤ r.lines.length) :
    ∃ s, subRoute r a b k = .ok s ∧ s.lines = (r.lines.drop a).take (b - a) ∧ s.invalid = false ∧
      Good (Alive ext r) (k + r.refs.length) s := by
  obtain ⟨s, h1, h2⟩ := (sub_route_lines hg a b k).1 hab
  have hmem : ∀ x ∈ (r.refs.drop a).take (b - a), Alive ext r x ∧ x.addr < k := by
    intro x hx
    have hxr : x ∈ r.refs := List.mem_of_mem_drop (List.mem_of_mem_take hx)
    exact ⟨(hg.alive x hxr).symm, Nat.lt_of_lt_of_le (hg.below x hxr) hk⟩
  have h0 : AccGood (Alive ext r) k ⟨[], [], k⟩ := ⟨le_refl _, by simp, rfl, by simp⟩
  have hgood := copyRefs_good _ r.own _ h0 hmem
  obtain ⟨hb, hb2⟩ := build_spec hgood
  have hab' : a ≤ b ∧ a < r.refs.length ∧ b ≤ r.refs.length := by simpa [Route.lines] using hab
  rw [subRoute, if_pos hab', hb] at h1
  injection h1 with h1
  subst h1
  refine ⟨_, by rw [subRoute, if_pos hab', hb], h2, rfl, hb2.mono ?_⟩
  have h1 := copyRefs_next ((r.refs.drop a).take (b - a)) r.own ⟨[], [], k⟩
  have h2 : ((r.refs.drop a).take (b - a)).length ≤ r.refs.length := by simp; omega
  simp only at h1
  omega

theorem ofOwn_good (ext : Ref P → Prop) {k n : Nat} (h : k < n) (l : List P) : Good ext n (Route.ofOwn [⟨k, l⟩]) :=
  ⟨by simp [Route.ofOwn], by simp [Route.ofOwn], by simp [Route.ofOwn], by simpa [Route.ofOwn] using h⟩

/-- **C29, parts by positions.**  In a route whose lines meet, take the part from position `aPos` of one line up to, and not
including, position `bPos` of a later line.  If it has a length, it is found, it is connected, and its points are those of
the part: the rest of the first line, the lines in between and the beginning of the last line, without the repeated joints
(up to repetitions of a point).
Missing: parts within one line, see `sub_route_same_line_fails`. -/
theorem sub_route_at_partial {ext : Ref P → Prop} {next : Nat} {r : Route P} (hg : Good ext next r)
    (hne : ∀ l ∈ r.lines, l ≠ []) (hc : r.lines.IsChain Meets) {pre mid post : List (List P)} {first last : List P}
    (hr : r.lines = pre ++ first :: mid ++ last :: post) {aPos bPos : Nat} (ha : aPos < first.length)
    (hb : bPos ≤ last.length)
    (hmove : ∃ s ∈ segs (first.drop aPos ++ mid.flatMap List.tail ++ (last.take bPos).tail), s.1 ≠ s.2) :
    ∃ s pts, subRouteAt r pre.length aPos (pre.length + mid.length + 2) bPos next = .ok s ∧ s.isConnected = true ∧
      s.richLine = .ok pts ∧
      squash pts = squash (first.drop aPos ++ mid.flatMap List.tail ++ (last.take bPos).tail) := by
  have hlen : r.lines.length = r.refs.length := by simp [Route.lines]
  have hn : r.lines.length = pre.length + mid.length + 2 + post.length := by rw [hr]; simp; omega
  have hlast : last ≠ [] := hne last (by rw [hr]; simp)
  have hfirst : first ≠ [] := hne first (by rw [hr]; simp)
  have hmid : ∀ l ∈ mid, l ≠ [] := fun l hl => hne l (by rw [hr]; simp [hl])
  have hgetA : r.lines[pre.length]? = some first := by rw [hr]; simp
  have hgetB : r.lines[pre.length + mid.length + 1]? = some last := by
    rw [hr, List.append_assoc, List.getElem?_append_right (by omega)]
    have : pre.length + mid.length + 1 - pre.length = mid.length + 1 := by omega
    rw [this]
    simp
  obtain ⟨refA, hrefA, hlineA⟩ : ∃ ref, r.refs[pre.length]? = some ref ∧ ref.line = first := by
    simpa [Route.lines] using hgetA
  have hbefore : lineBefore r (pre.length + mid.length + 2) = some last := by
    unfold lineBefore
    rw [if_neg (by omega)]
    simpa [Route.lines] using hgetB
  -- the chain of the lines of the part
  have hchain : (first :: mid ++ [last]).IsChain Meets := by
    refine hc.infix ⟨pre, post, ?_⟩
    rw [hr]; simp
  have hW : (nonempty (first.drop aPos :: mid ++ [last.take bPos])).IsChain Meets := by
    have hdrop : (first.drop aPos).getLast? = first.getLast? := by
      rw [List.getLast?_drop, if_neg (by omega)]
    have hd : first.drop aPos ≠ [] := by simp; omega
    have hmidn : nonempty mid = mid := List.filter_eq_self.2 (fun x hx => by simpa using hmid x hx)
    have h1 : (first.drop aPos :: mid).IsChain Meets := by
      have h0 : (first :: mid).IsChain Meets := hchain.left_of_append
      cases mid with
      | nil => simp
      | cons m ms =>
        rw [List.isChain_cons_cons] at h0 ⊢
        exact ⟨by rw [Meets, hdrop]; exact h0.1, h0.2⟩
    rw [nonempty_append, nonempty_cons, if_neg hd, hmidn]
    by_cases hb0 : bPos = 0
    · subst hb0
      simpa [nonempty] using h1
    · have ht : last.take bPos ≠ [] := by simp [hb0, hlast]
      have htn : nonempty [last.take bPos] = [last.take bPos] := by simp [nonempty, hb0, hlast]
      have hth : (last.take bPos).head? = last.head? := by rw [List.head?_take, if_neg hb0]
      rw [htn]
      refine List.IsChain.append h1 (by simp) ?_
      intro x hx y hy
      simp only [List.head?_cons, Option.mem_some_iff] at hy
      subst hy
      have h3 := List.isChain_append.1 hchain
      rw [Meets, hth]
      cases mid with
      | nil =>
        simp only [List.getLast?_singleton, Option.mem_some_iff] at hx
        subst hx
        rw [hdrop]
        exact h3.2.2 first (by simp) last (by simp)
      | cons m ms =>
        rw [List.getLast?_cons_cons] at hx
        exact h3.2.2 x (by rw [List.getLast?_cons_cons]; exact hx) last (by simp)
  have hjoin : joined (nonempty (first.drop aPos :: mid ++ [last.take bPos])) =
      first.drop aPos ++ mid.flatMap List.tail ++ (last.take bPos).tail := by
    have hd : first.drop aPos ≠ [] := by simp; omega
    have hmidn : nonempty mid = mid := List.filter_eq_self.2 (fun x hx => by simpa using hmid x hx)
    rw [nonempty_append, nonempty_cons, if_neg hd, hmidn]
    by_cases hb0 : bPos = 0
    · subst hb0
      simp [nonempty, joined]
    · simp [nonempty, hb0, hlast, joined]
  -- the parts that are merged
  have key : ∀ (hs ts : List (Route P)),
      headPart first aPos next = .ok hs →
      tailParts r (if 0 < aPos then pre.length + 1 else pre.length) (pre.length + mid.length + 2) (some last) bPos (next + 1) = .ok ts →
      (hs ++ ts).flatMap Route.lines = first.drop aPos :: mid ++ [last.take bPos] →
      (∀ x ∈ hs ++ ts, x.invalid = false) →
      (∀ x ∈ hs ++ ts, Good (Alive ext r) (next + 2 + r.refs.length) x) →
      ∃ s pts, subRouteAt r pre.length aPos (pre.length + mid.length + 2) bPos next = .ok s ∧ s.isConnected = true ∧
        s.richLine = .ok pts ∧
        squash pts = squash (first.drop aPos ++ mid.flatMap List.tail ++ (last.take bPos).tail) := by
    intro hs ts h1 h2 h3 h4 h5
    have hm : ∃ x ∈ hs ++ ts, x.mergeable = true := by
      by_contra hno
      push Not at hno
      obtain ⟨s, hsm, hsne⟩ := hmove
      rw [← hjoin, segs_joined _ (nonempty_all _) hW] at hsm
      obtain ⟨l, hl, hsl⟩ := List.mem_flatMap.1 hsm
      have hl2 := (List.mem_filter.1 hl).1
      rw [← h3] at hl2
      obtain ⟨x, hx, hlx⟩ := List.mem_flatMap.1 hl2
      exact hsne (not_mergeable (h4 x hx) (hno x hx) l hlx s hsl)
    obtain ⟨s, n, pts, g1, _, _, g4, g5, g6⟩ := merge_connected h5 h4 hm (by unfold Connected; rw [h3]; exact hW)
    refine ⟨s, pts, ?_, g4, g5, ?_⟩
    · have hin : inRange r pre.length aPos (pre.length + mid.length + 2) bPos = true := by
        unfold inRange
        rw [hrefA, hbefore]
        simp only [hlineA, ha, hb, hlast, Bool.and_eq_true, decide_eq_true_eq, List.isEmpty_eq_false_iff, Bool.not_eq_true',
          ne_eq, not_false_eq_true, and_true]
        omega
      rw [subRouteAt, if_pos hin, hrefA]
      simp only [hlineA, hbefore, h1, h2, Outcome.bind_ok]
      exact g1
    · rw [g6, h3, hjoin]
  -- the lines in between
  have hsub : ∀ a' b' : Nat, a' ≤ b' ∧ a' < r.lines.length ∧ b' ≤ r.lines.length →
      ∃ m, subRoute r a' b' (next + 1) = .ok m ∧ m.lines = (r.lines.drop a').take (b' - a') ∧ m.invalid = false ∧
        Good (Alive ext r) (next + 1 + r.refs.length) m := fun a' b' h => subRoute_good hg (by omega) h
  have hhead : 0 < aPos → headPart first aPos next = .ok [Route.ofOwn [⟨next, first.drop aPos⟩]] := by
    intro h0
    rw [headPart, if_pos h0, subLine, if_pos ⟨by omega, ha, le_refl _⟩, Outcome.map_ok]
    rw [List.take_of_length_le (by simp)]
  have htail : bPos < last.length → subLine last 0 bPos = .ok (last.take bPos) := by
    intro h0
    rw [subLine, if_pos ⟨by omega, by omega, by omega⟩]
    simp
  have hdropA : r.lines.drop pre.length = first :: mid ++ last :: post := by rw [hr]; simp
  have hdropA' : r.lines.drop (pre.length + 1) = mid ++ last :: post := by
    rw [← List.drop_drop, hdropA]; simp
  have hfin : ∀ m : Route P, Good (Alive ext r) (next + 1 + r.refs.length) m → m.invalid = false →
      ∀ (l : List P) (k : Nat), k < next + 2 + r.refs.length → ∀ x ∈ [m, Route.ofOwn [⟨k, l⟩]],
        x.invalid = false ∧ Good (Alive ext r) (next + 2 + r.refs.length) x := by
    intro m h1 h2 l k hk x hx
    simp only [List.mem_cons, List.not_mem_nil, or_false] at hx
    rcases hx with rfl | rfl
    · exact ⟨h2, h1.mono (by omega)⟩
    · exact ⟨rfl, ofOwn_good _ hk _⟩
  have hown : ∀ x ∈ [Route.ofOwn [(⟨next, first.drop aPos⟩ : Ref P)]],
      x.invalid = false ∧ Good (Alive ext r) (next + 2 + r.refs.length) x := by
    intro x hx
    simp only [List.mem_cons, List.not_mem_nil, or_false] at hx
    subst hx
    exact ⟨rfl, ofOwn_good _ (by omega) _⟩
  have hlo : ∀ (k : Nat) (l : List P), (Route.ofOwn [(⟨k, l⟩ : Ref P)]).lines = [l] := fun k l => rfl
  have hpos : pre.length + mid.length + 2 - 1 = pre.length + mid.length + 1 := by omega
  by_cases h0 : 0 < aPos
  · by_cases hbl : bPos < last.length
    · obtain ⟨m, m1, m2, m3, m4⟩ := hsub (pre.length + 1) (pre.length + mid.length + 1) ⟨by omega, by omega, by omega⟩
      have hm : m.lines = mid := by
        have : pre.length + mid.length + 1 - (pre.length + 1) = mid.length := by omega
        rw [m2, hdropA', this, List.take_left]
      have hts := hfin m m4 m3 (last.take bPos) (next + 1 + r.refs.length) (by omega)
      refine key _ [m, Route.ofOwn [⟨next + 1 + r.refs.length, last.take bPos⟩]] (hhead h0) ?_ ?_ ?_ ?_
      · rw [if_pos h0, tailParts, if_pos hbl]
        simp only [hpos, m1, htail hbl, Outcome.bind_ok, Outcome.map_ok]
      · simp [hm, hlo]
      · exact fun x hx => ((List.mem_append.1 hx).elim (hown x) (hts x)).1
      · exact fun x hx => ((List.mem_append.1 hx).elim (hown x) (hts x)).2
    · obtain ⟨m, m1, m2, m3, m4⟩ := hsub (pre.length + 1) (pre.length + mid.length + 2) ⟨by omega, by omega, by omega⟩
      have hm : m.lines = mid ++ [last.take bPos] := by
        have : pre.length + mid.length + 2 - (pre.length + 1) = mid.length + 1 := by omega
        rw [m2, hdropA', this, List.take_length_add_append, List.take_of_length_le (l := last) (by omega)]
        simp
      have hts : ∀ x ∈ [m], x.invalid = false ∧ Good (Alive ext r) (next + 2 + r.refs.length) x :=
        fun x hx => hfin m m4 m3 [] 0 (by omega) x (by simp at hx; simp [hx])
      refine key _ [m] (hhead h0) ?_ ?_ ?_ ?_
      · rw [if_pos h0, tailParts, if_neg hbl, if_pos (by omega), m1, Outcome.map_ok]
      · simp [hm, hlo]
      · exact fun x hx => ((List.mem_append.1 hx).elim (hown x) (hts x)).1
      · exact fun x hx => ((List.mem_append.1 hx).elim (hown x) (hts x)).2
  · have ha0 : aPos = 0 := by omega
    subst ha0
    by_cases hbl : bPos < last.length
    · obtain ⟨m, m1, m2, m3, m4⟩ := hsub pre.length (pre.length + mid.length + 1) ⟨by omega, by omega, by omega⟩
      have hm : m.lines = first :: mid := by
        have : pre.length + mid.length + 1 - pre.length = (first :: mid).length := by simp; omega
        rw [m2, hdropA, this, List.take_left]
      have hts := hfin m m4 m3 (last.take bPos) (next + 1 + r.refs.length) (by omega)
      refine key [] [m, Route.ofOwn [⟨next + 1 + r.refs.length, last.take bPos⟩]] rfl ?_ ?_ ?_ ?_
      · rw [if_neg h0, tailParts, if_pos hbl]
        simp only [hpos, m1, htail hbl, Outcome.bind_ok, Outcome.map_ok]
      · simp [hm, hlo]
      · exact fun x hx => (hts x hx).1
      · exact fun x hx => (hts x hx).2
    · obtain ⟨m, m1, m2, m3, m4⟩ := hsub pre.length (pre.length + mid.length + 2) ⟨by omega, by omega, by omega⟩
      have hm : m.lines = first :: mid ++ [last.take bPos] := by
        have : pre.length + mid.length + 2 - pre.length = (first :: mid).length + 1 := by simp; omega
        rw [m2, hdropA, this, List.take_length_add_append, List.take_of_length_le (l := last) (by omega)]
        simp
      have hts : ∀ x ∈ [m], x.invalid = false ∧ Good (Alive ext r) (next + 2 + r.refs.length) x :=
        fun x hx => hfin m m4 m3 [] 0 (by omega) x (by simp at hx; simp [hx])
      refine key [] [m] rfl ?_ ?_ ?_ ?_
      · rw [if_neg h0, tailParts, if_neg hbl, if_pos (by omega), m1, Outcome.map_ok]
      · simp [hm]
      · exact fun x hx => (hts x hx).1
      · exact fun x hx => (hts x hx).2

/-- From within the first to within the last of three lines. -/
example : Good demoExt 20 (⟨[⟨10, [4, 5, 0]⟩], [⟨10, [4, 5, 0]⟩, ⟨0, [0, 1]⟩, ⟨1, [1, 2]⟩], false⟩ : Route Nat) ∧
    (∃ s : Route Nat, subRouteAt ⟨[⟨10, [4, 5, 0]⟩], [⟨10, [4, 5, 0]⟩, ⟨0, [0, 1]⟩, ⟨1, [1, 2]⟩], false⟩ 0 1 3 1 20 = .ok s ∧
      s.richLine = .ok [5, 0, 1]) := by
  refine ⟨⟨by decide, by decide, by simp [demoExt], by decide⟩, _, rfl, by decide⟩

end MM.Route
