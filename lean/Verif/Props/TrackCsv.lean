import Verif.Model.TrackCsv
import Mathlib.Data.List.Nodup
import Mathlib.Data.List.Perm.Basic
import Mathlib.Data.List.Sort

/-!
# C45: point rows become one time-ordered track per identifier; C60: keys of rows are not mixed up
-/

set_option autoImplicit false
set_option linter.unusedSectionVars false

namespace MM.TrackCsv

variable {P : Type}

/-! ### Statement -/

/-- What `std::sort` and an unordered map promise. -/
structure Choice.Lawful (c : Choice P) : Prop where
  sort_perm : ∀ l, (c.sort l).Perm l
  sort_sorted : ∀ l, (c.sort l).Pairwise (fun a b => a.1 ≤ b.1)
  order_perm : ∀ m, (c.order m).Perm m

/-- The point rows of an identifier in order of reading, with time if they have one. -/
def pointRows (id : String) (is : List (Item P)) : List (Option Nat × P) :=
  is.filterMap (fun i => match i.geom with | .point p => if i.id = id then some (i.time, p) else none | _ => none)

/-- The same with times; a row without time has its position among them. -/
def timed (proj : P → P) (id : String) (is : List (Item P)) : List (Nat × P) :=
  (pointRows id is).zipIdx.map (fun x => (x.1.1.getD x.2, proj x.1.2))

/-- The tracks of points passed on for an identifier. -/
def pointTracks (id : String) (out : List (Track P)) : List (List P) :=
  out.filterMap (fun t => match t with | .points k l => if k = id then some l else none | .lines _ _ => none)

/-- The tracks of lines passed on. -/
def lineTracks (out : List (Track P)) : List (String × List (List P)) :=
  out.filterMap (fun t => match t with | .points _ _ => none | .lines k ls => some (k, ls))

/-- The lines of the selected rows with lines. -/
def wantedLines (proj : P → P) (sel : String → Bool) (is : List (Item P)) : List (String × List (List P)) :=
  (is.filterMap (fun i => match i.geom with
    | .line l => some (i.lineId, [l.map proj])
    | .multi ls => some (i.lineId, ls.map (List.map proj))
    | .empty => some (i.lineId, [[]])
    | _ => none)).filter (fun x => sel x.1)

/-- Once the identifier changes, the earlier one does not occur again. -/
def Contiguous (ids : List String) : Prop := ∀ pre x y post, ids = pre ++ x :: y :: post → x ≠ y → x ∉ post

/-- The track is as wanted: nothing for an identifier that is not selected or has no point rows, else one track with exactly its rows by time. -/
def Assembled (proj : P → P) (sel : String → Bool) (is : List (Item P)) (out : List (Track P)) (id : String) : Prop :=
  if sel id = true ∧ pointRows id is ≠ [] then
    ∃ ms : List (Nat × P), ms.Perm (timed proj id is) ∧ ms.Pairwise (fun a b => a.1 ≤ b.1) ∧ pointTracks id out = [ms.map Prod.snd]
  else pointTracks id out = []

/-! ### Maps -/

theorem addTo_keys (m : List (String × List (Nat × P))) (id : String) (x : Nat × P) :
    (addTo m id x).map Prod.fst = if id ∈ m.map Prod.fst then m.map Prod.fst else m.map Prod.fst ++ [id] := by
  induction m with
  | nil => simp [addTo]
  | cons a m ih =>
    obtain ⟨k, xs⟩ := a
    rw [addTo]
    by_cases h : k = id
    · simp [h]
    · rw [if_neg h]
      simp only [List.map_cons, ih, List.mem_cons, Ne.symm h, false_or]
      split <;> simp

theorem addTo_lookup (m : List (String × List (Nat × P))) (id : String) (x : Nat × P) (k : String) :
    (addTo m id x).lookup k = if k = id then some ((m.lookup id).getD [] ++ [x]) else m.lookup k := by
  induction m with
  | nil =>
    simp only [addTo, List.lookup_cons, List.lookup_nil, Option.getD_none, List.nil_append]
    by_cases h : k = id
    · simp [h]
    · have : (k == id) = false := by simpa using h
      simp [h, this]
  | cons a m ih =>
    obtain ⟨k', xs⟩ := a
    rw [addTo]
    by_cases h : k' = id
    · subst h
      by_cases hk : k = k'
      · simp [hk]
      · have : (k == k') = false := by simpa using hk
        simp [hk, List.lookup_cons, this]
    · rw [if_neg h, List.lookup_cons, List.lookup_cons, List.lookup_cons, ih]
      have h1 : (id == k') = false := by simpa using Ne.symm h
      rw [h1]
      by_cases hk : k = k'
      · subst hk
        simp [h]
      · have : (k == k') = false := by simpa using hk
        simp [this]

theorem addTo_nodup {m : List (String × List (Nat × P))} (h : (m.map Prod.fst).Nodup) (id : String) (x : Nat × P) :
    ((addTo m id x).map Prod.fst).Nodup := by
  rw [addTo_keys]
  split
  · exact h
  · rename_i hn
    rw [List.nodup_append]
    refine ⟨h, by simp, ?_⟩
    rintro a ha b hb rfl
    simp only [List.mem_singleton] at hb
    exact hn (hb ▸ ha)

theorem lookup_none_of_key {α : Type} {m : List (String × α)} {k : String} (h : k ∉ m.map Prod.fst) : m.lookup k = none := by
  rw [List.lookup_eq_none_iff]
  intro p hp
  simp only [beq_eq_false_iff_ne, ne_eq, bne_iff_ne]
  rintro rfl
  exact h (List.mem_map.2 ⟨p, hp, rfl⟩)

/-! ### Flushing -/

theorem pointTracks_append (id : String) (a b : List (Track P)) : pointTracks id (a ++ b) = pointTracks id a ++ pointTracks id b := by
  simp [pointTracks, List.filterMap_append]

theorem lineTracks_append (a b : List (Track P)) : lineTracks (a ++ b) = lineTracks a ++ lineTracks b := by
  simp [lineTracks, List.filterMap_append]

/-- What a flush passes on. -/
def emitted (c : Choice P) (sel : String → Bool) (m : List (String × List (Nat × P))) : List (Track P) :=
  ((c.order m).filter (fun x => sel x.1)).map (fun x => .points x.1 ((c.sort x.2).map Prod.snd))

theorem emitted_lines (c : Choice P) (sel : String → Bool) (m : List (String × List (Nat × P))) : lineTracks (emitted c sel m) = [] := by
  unfold lineTracks emitted
  rw [List.filterMap_map]
  simp [Function.comp_def]

theorem emitted_points {c : Choice P} (hc : c.Lawful) (sel : String → Bool) {m : List (String × List (Nat × P))} (hm : (m.map Prod.fst).Nodup)
    (id : String) : pointTracks id (emitted c sel m) =
      if sel id then ((m.lookup id).map (fun ms => (c.sort ms).map Prod.snd)).toList else [] := by
  have hfun : ∀ l : List (String × List (Nat × P)),
      pointTracks id ((l.filter (fun x => sel x.1)).map (fun x => (.points x.1 ((c.sort x.2).map Prod.snd) : Track P))) =
        l.filterMap (fun x => if x.1 = id ∧ sel id then some ((c.sort x.2).map Prod.snd) else none) := by
    intro l
    induction l with
    | nil => rfl
    | cons x l ih =>
      obtain ⟨k, xs⟩ := x
      have hcons : ∀ (t : Track P) (ts : List (Track P)), pointTracks id (t :: ts) = pointTracks id [t] ++ pointTracks id ts := fun t ts =>
        pointTracks_append id [t] ts
      rw [List.filter_cons, List.filterMap_cons, ← ih]
      simp only
      by_cases hk : k = id
      · subst hk
        by_cases hs : sel k = true
        · rw [if_pos hs, if_pos ⟨rfl, hs⟩, List.map_cons, hcons]
          simp [pointTracks]
        · rw [if_neg hs, if_neg (fun h : k = k ∧ sel k = true => hs h.2)]
      · rw [if_neg (fun h : k = id ∧ sel id = true => hk h.1)]
        by_cases hs : sel k = true
        · rw [if_pos hs, List.map_cons, hcons]
          simp [pointTracks, hk]
        · rw [if_neg hs]
  unfold emitted
  rw [hfun]
  have hperm := (hc.order_perm m).filterMap (fun x => if x.1 = id ∧ sel id then some ((c.sort x.2).map Prod.snd) else none)
  have hm' : m.filterMap (fun x => if x.1 = id ∧ sel id then some ((c.sort x.2).map Prod.snd) else none) =
      if sel id then ((m.lookup id).map (fun ms => (c.sort ms).map Prod.snd)).toList else [] := by
    clear hperm hfun
    induction m with
    | nil => simp
    | cons x m ih =>
      obtain ⟨k, xs⟩ := x
      simp only [List.map_cons, List.nodup_cons] at hm
      rw [List.filterMap_cons, List.lookup_cons, ih hm.2]
      by_cases hk : k = id
      · subst hk
        by_cases hs : sel k = true
        · simp [hs, lookup_none_of_key hm.1]
        · simp [hs]
      · have : (id == k) = false := by simpa using Ne.symm hk
        simp [hk, this]
  rw [hm'] at hperm
  split at hperm
  · rename_i hs
    rw [if_pos hs]
    cases hl : m.lookup id with
    | none => rw [hl] at hperm; simpa using hperm
    | some ms => rw [hl] at hperm; exact List.perm_singleton.1 hperm
  · rename_i hs
    rw [if_neg hs]
    exact List.perm_nil.1 hperm

/-! ### The rows of an identifier -/

theorem pointRows_append (id : String) (a b : List (Item P)) : pointRows id (a ++ b) = pointRows id a ++ pointRows id b := by
  simp [pointRows, List.filterMap_append]

theorem timed_append (proj : P → P) (id : String) (a : List (Item P)) (i : Item P) (p : P) (hg : i.geom = .point p) (hid : i.id = id) :
    timed proj id (a ++ [i]) = timed proj id a ++ [(i.time.getD (pointRows id a).length, proj p)] := by
  unfold timed
  rw [pointRows_append]
  have : pointRows id [i] = [(i.time, p)] := by simp [pointRows, hg, hid]
  rw [this, List.zipIdx_append]
  simp

theorem pointRows_other (id : String) (a : List (Item P)) (i : Item P) (h : i.id ≠ id ∨ ∀ p, i.geom ≠ .point p) :
    pointRows id (a ++ [i]) = pointRows id a := by
  rw [pointRows_append]
  have : pointRows id [i] = [] := by
    unfold pointRows
    rw [List.filterMap_cons]
    cases hg : i.geom with
    | point p =>
      rcases h with h | h
      · simp [h]
      · exact absurd hg (h p)
    | line l => simp
    | multi ls => simp
    | empty => simp
    | other => simp
  rw [this, List.append_nil]

theorem timed_length (proj : P → P) (id : String) (is : List (Item P)) : (timed proj id is).length = (pointRows id is).length := by
  simp [timed]

/-! ### Invariant -/

/-- Where the rows of an identifier are: collected, passed on for good, or nowhere as there are none. -/
def Placed (proj : P → P) (sel : String → Bool) (done rest : List (Item P)) (s : St P) (id : String) : Prop :=
  (pointTracks id s.out = [] ∧ pointRows id done ≠ [] ∧ s.pending.lookup id = some (timed proj id done)) ∨
  (pointTracks id s.out = [] ∧ pointRows id done = [] ∧ s.pending.lookup id = none) ∨
  (s.pending.lookup id = none ∧ pointRows id done ≠ [] ∧ (∀ i ∈ rest, i.id ≠ id) ∧ Assembled proj sel done s.out id)

/-- The invariant of reading; `prev` is the identifier of the last row. -/
structure Inv (proj : P → P) (sel : String → Bool) (grouped : Bool) (done rest : List (Item P)) (s : St P) : Prop where
  nodup : (s.pending.map Prod.fst).Nodup
  placed : ∀ id, Placed proj sel done rest s id
  current : grouped = true → s.current = done.getLast?.map Item.id
  single : grouped = true → ∀ k ∈ s.pending.map Prod.fst, s.current = some k
  lines : lineTracks s.out = wantedLines proj sel done

theorem finish_placed {proj : P → P} {c : Choice P} (hc : c.Lawful) {sel : String → Bool} {done rest : List (Item P)} {s : St P}
    (hn : (s.pending.map Prod.fst).Nodup) {id : String} (h : Placed proj sel done rest s id)
    (hrest : s.pending.lookup id ≠ none → ∀ i ∈ rest, i.id ≠ id) : Placed proj sel done rest (finish c sel s) id := by
  have hout : pointTracks id (finish c sel s).out = pointTracks id s.out ++
      if sel id then ((s.pending.lookup id).map (fun ms => (c.sort ms).map Prod.snd)).toList else [] := by
    rw [← emitted_points hc sel hn id, ← pointTracks_append]
    rfl
  have hp : (finish c sel s).pending.lookup id = none := rfl
  rcases h with ⟨h1, h2, h3⟩ | ⟨h1, h2, h3⟩ | ⟨h1, h2, h3, h4⟩
  · right; right
    refine ⟨hp, h2, hrest (by rw [h3]; simp), ?_⟩
    rw [h1, h3, List.nil_append] at hout
    unfold Assembled
    by_cases hs : sel id = true
    · rw [if_pos ⟨hs, h2⟩]
      refine ⟨c.sort (timed proj id done), hc.sort_perm _, hc.sort_sorted _, ?_⟩
      rw [hout, if_pos hs]
      rfl
    · rw [if_neg (fun h => hs h.1), hout, if_neg hs]
  · right; left
    refine ⟨?_, h2, hp⟩
    rw [hout, h1, h3]
    split <;> rfl
  · right; right
    refine ⟨hp, h2, h3, ?_⟩
    rw [h1] at hout
    have : pointTracks id (finish c sel s).out = pointTracks id s.out := by
      rw [hout]
      split <;> simp
    unfold Assembled at h4 ⊢
    rw [this]
    exact h4

theorem flush_inv {proj : P → P} {c : Choice P} (hc : c.Lawful) {sel : String → Bool} {grouped : Bool} {done rest : List (Item P)} {i : Item P}
    {s : St P} (hcont : grouped = true → Contiguous ((done ++ i :: rest).map Item.id)) (hi : Inv proj sel grouped done (i :: rest) s) :
    ((flush c sel grouped i.id s).pending.map Prod.fst).Nodup ∧ (∀ id, Placed proj sel done (i :: rest) (flush c sel grouped i.id s) id) ∧
      (grouped = true → ∀ k ∈ (flush c sel grouped i.id s).pending.map Prod.fst, k = i.id) ∧
      lineTracks (flush c sel grouped i.id s).out = wantedLines proj sel done := by
  unfold flush
  split
  · rename_i h
    obtain ⟨h1, h2, h3⟩ := h
    refine ⟨by simp [finish], fun id => finish_placed hc hi.nodup (hi.placed id) ?_, by simp [finish], ?_⟩
    · intro hl j hj
      have hk : id ∈ s.pending.map Prod.fst := by
        by_contra hn
        exact hl (lookup_none_of_key hn)
      have hcur := hi.single h2 id hk
      have hne : id ≠ i.id := fun he => h3 (by rw [hcur, he])
      have hlast := hi.current h2
      rw [hcur] at hlast
      cases hd : done.getLast? with
      | none => rw [hd] at hlast; cases hlast
      | some l =>
        rw [hd] at hlast
        simp only [Option.map_some, Option.some.injEq] at hlast
        obtain ⟨pre, hpre⟩ := List.getLast?_eq_some_iff.1 hd
        have := hcont h2 (pre.map Item.id) id i.id (rest.map Item.id) (by rw [hpre]; simp [hlast]) hne
        rcases List.mem_cons.1 hj with rfl | hj
        · exact Ne.symm hne
        · intro he
          exact this (List.mem_map.2 ⟨j, hj, he⟩)
    · have : (finish c sel s).out = s.out ++ emitted c sel s.pending := rfl
      rw [this, lineTracks_append, emitted_lines, List.append_nil]
      exact hi.lines
  · rename_i h
    refine ⟨hi.nodup, hi.placed, ?_, hi.lines⟩
    intro hg k hk
    have hcur := hi.single hg k hk
    by_contra hne
    exact h ⟨by rw [hcur]; rfl, hg, by rw [hcur]; simpa using hne⟩

theorem placed_lines {proj : P → P} {sel : String → Bool} {done rest : List (Item P)} {i : Item P} {s s' : St P} {id : String}
    (hg : i.id ≠ id ∨ ∀ p, i.geom ≠ .point p) (hpend : s'.pending.lookup id = s.pending.lookup id) (hout : pointTracks id s'.out = pointTracks id s.out)
    (h : Placed proj sel done (i :: rest) s id) : Placed proj sel (done ++ [i]) rest s' id := by
  have hrows := pointRows_other id done i hg
  have htimed : timed proj id (done ++ [i]) = timed proj id done := by unfold timed; rw [hrows]
  unfold Placed Assembled at *
  rw [hrows, htimed, hpend, hout]
  rcases h with h | h | ⟨h1, h2, h3, h4⟩
  · exact Or.inl h
  · exact Or.inr (Or.inl h)
  · exact Or.inr (Or.inr ⟨h1, h2, fun j hj => h3 j (List.mem_cons_of_mem _ hj), h4⟩)

theorem wantedLines_append (proj : P → P) (sel : String → Bool) (a b : List (Item P)) :
    wantedLines proj sel (a ++ b) = wantedLines proj sel a ++ wantedLines proj sel b := by
  simp [wantedLines, List.filterMap_append, List.filter_append]

theorem step_lines {proj : P → P} {sel : String → Bool} {grouped : Bool} {done rest : List (Item P)} {i : Item P} {s : St P}
    (hids : grouped = true → i.lineId = i.id) (hg : ∀ p, i.geom ≠ .point p) (ls : List (List P))
    (hn : (s.pending.map Prod.fst).Nodup) (hp : ∀ id, Placed proj sel done (i :: rest) s id)
    (hs : grouped = true → ∀ k ∈ s.pending.map Prod.fst, k = i.id) (hl : lineTracks s.out = wantedLines proj sel done)
    (hw : wantedLines proj sel [i] = if sel i.lineId then [(i.lineId, ls)] else []) :
    Inv proj sel grouped (done ++ [i]) rest
      { s with out := if sel i.lineId then s.out ++ [.lines i.lineId ls] else s.out, current := some i.lineId } := by
  refine ⟨hn, fun id => placed_lines (s := s) (Or.inr hg) rfl ?_ (hp id), ?_, ?_, ?_⟩
  · simp only
    split
    · rw [pointTracks_append]
      simp [pointTracks]
    · rfl
  · intro hgr
    simp [hids hgr]
  · intro hgr k hk
    rw [hs hgr k hk, hids hgr]
  · rw [wantedLines_append, ← hl, hw]
    simp only
    split
    · rw [lineTracks_append]
      simp [lineTracks]
    · simp

theorem step_inv {proj : P → P} {c : Choice P} (hc : c.Lawful) {sel : String → Bool} {grouped : Bool} {done rest : List (Item P)} {i : Item P}
    {s : St P} (hids : grouped = true → i.lineId = i.id)
    (hcont : grouped = true → Contiguous ((done ++ i :: rest).map Item.id)) (hi : Inv proj sel grouped done (i :: rest) s) :
    Inv proj sel grouped (done ++ [i]) rest (step proj c sel grouped s i) := by
  obtain ⟨hn, hp, hs, hl⟩ := flush_inv hc hcont hi
  unfold step
  generalize flush c sel grouped i.id s = s' at *
  unfold apply
  have hw : wantedLines proj sel [i] = (match i.geom with
    | .line l => if sel i.lineId then [(i.lineId, [l.map proj])] else []
    | .multi ls => if sel i.lineId then [(i.lineId, ls.map (List.map proj))] else []
    | .empty => if sel i.lineId then [(i.lineId, [[]])] else []
    | _ => []) := by
    unfold wantedLines
    cases h : i.geom <;> simp [h, List.filter_cons]
  cases hg : i.geom with
  | line l => exact step_lines hids (by simp [hg]) _ hn hp hs hl (by rw [hw, hg])
  | multi ls => exact step_lines hids (by simp [hg]) _ hn hp hs hl (by rw [hw, hg])
  | empty => exact step_lines hids (by simp [hg]) _ hn hp hs hl (by rw [hw, hg])
  | other =>
    refine ⟨hn, fun id => placed_lines (s := s') (Or.inr (by simp [hg])) rfl rfl (hp id), ?_, ?_, ?_⟩
    · intro _; simp
    · intro hgr k hk
      rw [hs hgr k hk]
    · rw [wantedLines_append, ← hl, hw, hg]
      simp
  | point p =>
    refine ⟨addTo_nodup hn _ _, ?_, ?_, ?_, ?_⟩
    · intro id
      by_cases hid : i.id = id
      · left
        have hrows : pointRows id (done ++ [i]) = pointRows id done ++ [(i.time, p)] := by
          rw [pointRows_append]
          congr 1
          simp [pointRows, hg, hid]
        simp only
        rcases hp id with ⟨h1, h2, h3⟩ | ⟨h1, h2, h3⟩ | ⟨_, _, h3, _⟩
        · refine ⟨h1, by rw [hrows]; simp, ?_⟩
          rw [addTo_lookup, if_pos hid.symm, hid, h3, timed_append proj id done i p hg hid]
          simp only [stamp, hid, h3, Option.map_some, Option.getD_some, timed_length]
        · refine ⟨h1, by rw [hrows]; simp, ?_⟩
          rw [addTo_lookup, if_pos hid.symm, hid, h3, timed_append proj id done i p hg hid]
          simp only [stamp, hid, h3, Option.map_none, Option.getD_none, timed, h2]
          simp
        · exact absurd hid (h3 i (List.mem_cons_self ..))
      · refine placed_lines (s := s') (Or.inl hid) ?_ rfl (hp id)
        simp only
        rw [addTo_lookup, if_neg (fun h => hid h.symm)]
    · intro _; simp
    · intro hgr k hk
      simp only at hk ⊢
      rw [addTo_keys] at hk
      split at hk
      · rw [hs hgr k hk]
      · rcases List.mem_append.1 hk with hk | hk
        · rw [hs hgr k hk]
        · rw [List.mem_singleton.1 hk]
    · rw [wantedLines_append, ← hl, hw, hg]
      simp

theorem read_spec {proj : P → P} {c : Choice P} (hc : c.Lawful) (sel : String → Bool) (grouped : Bool) (is : List (Item P))
    (hids : grouped = true → ∀ j ∈ is, j.lineId = j.id) (hcont : grouped = true → Contiguous (is.map Item.id)) :
    (∀ id, Assembled proj sel is (read proj c sel grouped is) id) ∧ lineTracks (read proj c sel grouped is) = wantedLines proj sel is := by
  have key : ∀ (rest done : List (Item P)) (s : St P), (grouped = true → ∀ j ∈ rest, j.lineId = j.id) →
      (grouped = true → Contiguous ((done ++ rest).map Item.id)) → Inv proj sel grouped done rest s →
      Inv proj sel grouped (done ++ rest) [] (rest.foldl (step proj c sel grouped) s) := by
    intro rest
    induction rest with
    | nil => intro done s _ _ h; simpa using h
    | cons i rest ih =>
      intro done s h1 h2 h
      have := ih (done ++ [i]) _ (fun hg j hj => h1 hg j (List.mem_cons_of_mem _ hj)) (by simpa using h2)
        (step_inv hc (fun hg => h1 hg i (List.mem_cons_self ..)) h2 h)
      simpa using this
  have hinit : Inv proj sel grouped [] is (⟨none, [], []⟩ : St P) :=
    ⟨by simp, fun id => Or.inr (Or.inl ⟨rfl, rfl, rfl⟩), by simp, by simp, rfl⟩
  have hfin := key is [] _ hids hcont hinit
  rw [List.nil_append] at hfin
  constructor
  · intro id
    have := finish_placed hc hfin.nodup (hfin.placed id) (by simp)
    unfold read
    rcases this with ⟨_, _, h3⟩ | ⟨h1, h2, _⟩ | ⟨_, _, _, h4⟩
    · simp [finish] at h3
    · unfold Assembled
      rw [if_neg (fun h => h.2 h2)]
      exact h1
    · exact h4
  · have : read proj c sel grouped is = (is.foldl (step proj c sel grouped) ⟨none, [], []⟩).out ++
        emitted c sel (is.foldl (step proj c sel grouped) ⟨none, [], []⟩).pending := rfl
    rw [this, lineTracks_append, emitted_lines, List.append_nil]
    exact hfin.lines

/-- **C45**, not grouped: for all rows of all files in any order, every selected identifier with point rows gets one track with exactly its rows
by time, no other track of points is passed on, and the selected lines are passed on in order. -/
theorem assembled {proj : P → P} {c : Choice P} (hc : c.Lawful) (sel : String → Bool) (is : List (Item P)) :
    (∀ id, Assembled proj sel is (read proj c sel false is) id) ∧ lineTracks (read proj c sel false is) = wantedLines proj sel is :=
  read_spec hc sel false is (by simp) (by simp)

/-- **C45**, grouped: the same if the rows of an identifier are contiguous (and lines carry the identifiers of their rows). -/
theorem assembled_grouped {proj : P → P} {c : Choice P} (hc : c.Lawful) (sel : String → Bool) (is : List (Item P))
    (hcont : Contiguous (is.map Item.id)) (hids : ∀ j ∈ is, j.lineId = j.id) :
    (∀ id, Assembled proj sel is (read proj c sel true is) id) ∧ lineTracks (read proj c sel true is) = wantedLines proj sel is :=
  read_spec hc sel true is (fun _ => hids) (fun _ => hcont)

/-- In every mode, the condition on lines holds unless whole files are tracks. -/
theorem lineId_eq (s : Settings) (h : ¬ (s.noId = true ∧ s.wholeFile = true)) (files : List (List (Row P))) : ∀ j ∈ items s files, j.lineId = j.id := by
  intro j hj
  unfold items at hj
  simp only [List.mem_flatMap, List.mem_map] at hj
  obtain ⟨f, _, r, _, rfl⟩ := hj
  unfold lineId rowId
  by_cases hn : s.noId = true
  · have hw : s.wholeFile = false := by
      cases hw : s.wholeFile
      · rfl
      · exact absurd ⟨hn, hw⟩ h
    simp [hn, hw]
  · simp [hn]

/-- Selectors (csv_track_importer.hpp 152, 224): without selectors every identifier is selected. -/
def selected (selectors : List String) (id : String) : Bool := selectors.isEmpty || selectors.contains id

/-- Insertion of an element (a sorting for the examples). -/
def ins (x : Nat × P) : List (Nat × P) → List (Nat × P)
  | [] => [x]
  | y :: ys => if x.1 ≤ y.1 then x :: y :: ys else y :: ins x ys

/-- Sorting by insertion. -/
def insSort : List (Nat × P) → List (Nat × P)
  | [] => []
  | x :: xs => ins x (insSort xs)

theorem ins_perm (x : Nat × P) (l : List (Nat × P)) : (ins x l).Perm (x :: l) := by
  induction l with
  | nil => exact List.Perm.refl _
  | cons y ys ih =>
    rw [ins]
    split
    · exact List.Perm.refl _
    · exact (ih.cons y).trans (List.Perm.swap x y ys)

theorem ins_sorted (x : Nat × P) (l : List (Nat × P)) (h : l.Pairwise (fun a b => a.1 ≤ b.1)) : (ins x l).Pairwise (fun a b => a.1 ≤ b.1) := by
  induction l with
  | nil => simp [ins]
  | cons y ys ih =>
    obtain ⟨h1, h2⟩ := List.pairwise_cons.1 h
    rw [ins]
    split
    · rename_i hxy
      refine List.pairwise_cons.2 ⟨?_, h⟩
      intro z hz
      rcases List.mem_cons.1 hz with rfl | hz
      · exact hxy
      · exact le_trans hxy (h1 z hz)
    · rename_i hxy
      refine List.pairwise_cons.2 ⟨?_, ih h2⟩
      intro z hz
      rcases List.mem_cons.1 ((ins_perm x ys).subset hz) with rfl | hz
      · omega
      · exact h1 z hz

theorem insSort_lawful : (⟨insSort, id⟩ : Choice P).Lawful := by
  refine ⟨?_, ?_, fun m => List.Perm.refl m⟩
  · intro l
    induction l with
    | nil => exact List.Perm.refl _
    | cons x xs ih => exact (ins_perm x _).trans (ih.cons x)
  · intro l
    induction l with
    | nil => exact List.Pairwise.nil
    | cons x xs ih => exact ins_sorted x _ ih

/-- Rows of two tracks mixed, not in order of time, one without time. -/
def sample : List (Item Nat) :=
  [⟨"a", "a", some 5, .point 50⟩, ⟨"b", "b", none, .point 7⟩, ⟨"a", "a", some 3, .point 30⟩, ⟨"b", "b", none, .point 8⟩]

example : read id ⟨insSort, id⟩ (selected []) false sample = [.points "a" [30, 50], .points "b" [7, 8]] ∧
    read id ⟨insSort, id⟩ (selected ["b"]) false sample = [.points "b" [7, 8]] ∧ (⟨insSort, id⟩ : Choice Nat).Lawful :=
  ⟨by simp [read, sample, step, flush, apply, addTo, stamp, List.lookup, finish, insSort, ins, selected],
    by simp [read, sample, step, flush, apply, addTo, stamp, List.lookup, finish, insSort, ins, selected], insSort_lawful⟩

/-- The condition of `assembled_grouped` is needed: these rows give two tracks each. -/
example : (pointTracks "a" (read id ⟨insSort, id⟩ (selected []) true sample)).length = 2 := by
  simp [pointTracks, read, sample, step, flush, apply, addTo, stamp, List.lookup, finish, insSort, ins, selected]

example : Contiguous (([⟨"a", "a", some 5, .point 50⟩, ⟨"a", "a", some 3, .point 30⟩, ⟨"b", "b", none, .point 7⟩] : List (Item Nat)).map Item.id) := by
  intro pre x y post h hne
  simp only [List.map_cons, List.map_nil] at h
  rcases pre with _ | ⟨a, _ | ⟨b, _ | ⟨d, pre⟩⟩⟩
  · simp at h; exact absurd (h.1.symm.trans h.2.1) hne
  · simp at h; rw [h.2.2.2]; simp
  · simp at h
  · simp at h

/-! ### C60: keys -/

theorem joinFields_single (agg f : String) : joinFields agg [f] = f := by simp [joinFields]

/-- **C60**, one field: rows with different fields have different identifiers. -/
theorem key_single (s : Settings) (hid : s.noId = false) {f g : Nat} {n m : Nat} {r r' : Row P} (hr : r.fields.length = 1) (hr' : r'.fields.length = 1)
    (h : rowId s f n r = rowId s g m r') : r.fields = r'.fields := by
  obtain ⟨a, ha⟩ := List.length_eq_one_iff.1 hr
  obtain ⟨b, hb⟩ := List.length_eq_one_iff.1 hr'
  simp only [rowId, hid, Bool.false_eq_true, if_false, ha, hb, joinFields_single] at h
  rw [ha, hb, h]

theorem joinFields_cons (agg : String) (f : String) (fs : List String) (hne : f ≠ "") : joinFields agg (f :: fs) = f ++ String.join (fs.map (agg ++ ·)) := by
  have key : ∀ (fs : List String) (s : String), s ≠ "" → fs.foldl (fun id f => (if id.isEmpty then id else id ++ agg) ++ f) s =
      s ++ String.join (fs.map (agg ++ ·)) := by
    intro fs
    induction fs with
    | nil => intro s _; simp [String.join]
    | cons g fs ih =>
      intro s hs
      have he : s.isEmpty = false := by
        rw [Bool.eq_false_iff]
        intro h
        exact hs (String.isEmpty_iff.1 h)
      rw [List.foldl_cons, he]
      simp only [Bool.false_eq_true, if_false]
      rw [ih]
      · apply String.toList_injective
        simp
      · intro h
        have h' := congrArg String.toList h
        simp only [String.toList_append] at h'
        apply hs
        apply String.toList_injective
        simp at h'
        simp [h'.1]
  unfold joinFields
  rw [List.foldl_cons]
  have he : ("" : String).isEmpty = true := rfl
  simp only [he, if_true, String.empty_append]
  exact key fs f hne

/-- **C60 partial**: fields that are not empty and do not contain the first character of the aggregator.  Missing: other fields
(`key_fails`) and rows of several files without identifiers (`key_files_fails`). -/
theorem key_partial (s : Settings) (hid : s.noId = false) (ch : Char) (rest : List Char) (hagg : s.aggregator = String.ofList (ch :: rest))
    {f g n m : Nat} {r r' : Row P} (hlen : r.fields.length = r'.fields.length) (h1 : ∀ x ∈ r.fields, x ≠ "" ∧ ch ∉ x.toList)
    (h2 : ∀ x ∈ r'.fields, x ≠ "" ∧ ch ∉ x.toList) (h : rowId s f n r = rowId s g m r') : r.fields = r'.fields := by
  simp only [rowId, hid, Bool.false_eq_true, if_false] at h
  generalize r.fields = a at *
  generalize r'.fields = b at *
  have cut : ∀ (x y u v : List Char), ch ∉ x → ch ∉ y → x ++ u = y ++ v → (u = [] ∨ u.head? = some ch) → (v = [] ∨ v.head? = some ch) → x = y ∧ u = v := by
    intro x
    induction x with
    | nil =>
      intro y u v _ hy he hu hv
      cases y with
      | nil => exact ⟨rfl, he⟩
      | cons c y =>
        simp only [List.nil_append, List.cons_append] at he
        rcases hu with hu | hu
        · rw [hu] at he; cases he
        · rw [he] at hu
          simp only [List.head?_cons, Option.some.injEq] at hu
          exact absurd (by rw [hu]; exact List.mem_cons_self ..) hy
    | cons d x ih =>
      intro y u v hx hy he hu hv
      cases y with
      | nil =>
        simp only [List.nil_append, List.cons_append] at he
        rcases hv with hv | hv
        · rw [hv] at he; cases he
        · rw [← he] at hv
          simp only [List.head?_cons, Option.some.injEq] at hv
          exact absurd (by rw [hv]; exact List.mem_cons_self ..) hx
      | cons c y =>
        simp only [List.cons_append, List.cons.injEq] at he
        obtain ⟨e1, e2⟩ := ih y u v (fun h => hx (List.mem_cons_of_mem _ h)) (fun h => hy (List.mem_cons_of_mem _ h)) he.2 hu hv
        exact ⟨by rw [he.1, e1], e2⟩
  have hjoin : ∀ l : List String, (String.join (l.map (s.aggregator ++ ·))).toList = [] ∨
      (String.join (l.map (s.aggregator ++ ·))).toList.head? = some ch := by
    intro l
    cases l with
    | nil => left; simp [String.join]
    | cons x l => right; rw [hagg]; simp
  have tails : ∀ (a b : List String), a.length = b.length → (∀ x ∈ a, x ≠ "" ∧ ch ∉ x.toList) → (∀ x ∈ b, x ≠ "" ∧ ch ∉ x.toList) →
      (String.join (a.map (s.aggregator ++ ·))).toList = (String.join (b.map (s.aggregator ++ ·))).toList → a = b := by
    intro a
    induction a with
    | nil => intro b hl _ _ _; cases b with | nil => rfl | cons y b => simp at hl
    | cons x a ih =>
      intro b hl ha hb he
      cases b with
      | nil => simp at hl
      | cons y b =>
        have hsplit : ∀ (z : String) (l : List String), (String.join ((z :: l).map (s.aggregator ++ ·))).toList =
            s.aggregator.toList ++ (z.toList ++ (String.join (l.map (s.aggregator ++ ·))).toList) := by
          intro z l
          simp
        rw [hsplit, hsplit] at he
        have he' := List.append_cancel_left he
        obtain ⟨e1, e2⟩ := cut _ _ _ _ (ha x (List.mem_cons_self ..)).2 (hb y (List.mem_cons_self ..)).2 he' (hjoin a) (hjoin b)
        rw [String.toList_injective e1, ih b (by simpa using hl) (fun z hz => ha z (List.mem_cons_of_mem _ hz))
          (fun z hz => hb z (List.mem_cons_of_mem _ hz)) e2]
  cases a with
  | nil => cases b with | nil => rfl | cons y b => simp at hlen
  | cons x a =>
    cases b with
    | nil => simp at hlen
    | cons y b =>
      rw [joinFields_cons _ _ _ (h1 x (List.mem_cons_self ..)).1, joinFields_cons _ _ _ (h2 y (List.mem_cons_self ..)).1] at h
      have h' := congrArg String.toList h
      simp only [String.toList_append] at h'
      obtain ⟨e1, e2⟩ := cut _ _ _ _ (h1 x (List.mem_cons_self ..)).2 (h2 y (List.mem_cons_self ..)).2 h' (hjoin a) (hjoin b)
      rw [String.toList_injective e1, tails a b (by simpa using hlen) (fun z hz => h1 z (List.mem_cons_of_mem _ hz))
        (fun z hz => h2 z (List.mem_cons_of_mem _ hz)) e2]

/-- **C60 fails**: the keys ("", "a,b") and ("a", "b") have the same identifier, so their rows become one track. -/
theorem key_fails : ∃ (s : Settings) (r r' : Row Nat), s.noId = false ∧ s.aggregator = "," ∧ r.fields.length = r'.fields.length ∧ r.fields ≠ r'.fields ∧
    rowId s 0 0 r = rowId s 0 1 r' ∧ read id ⟨insSort, id⟩ (selected []) false (items s [[r, r']]) = [.points "a,b" [10, 20]] := by
  refine ⟨⟨false, false, false, ","⟩, ⟨["", "a,b"], none, .point 10⟩, ⟨["a", "b"], none, .point 20⟩, rfl, rfl, rfl, by simp, ?_, ?_⟩
  · decide +kernel
  · have h1 : joinFields "," ["", "a,b"] = "a,b" := by decide +kernel
    have h2 : joinFields "," ["a", "b"] = "a,b" := by decide +kernel
    simp [items, rowId, lineId, h1, h2, read, step, flush, apply, addTo, stamp, List.lookup, finish, insSort, ins, selected]

/-- **C60 fails**: without identifiers every row is a track of its own, but first rows of two files become one track. -/
theorem key_files_fails : ∃ (s : Settings) (r r' : Row Nat), s.noId = true ∧ s.wholeFile = false ∧
    read id ⟨insSort, id⟩ (selected []) false (items s [[r], [r']]) = [.points "0" [10, 20]] := by
  refine ⟨⟨true, false, false, ","⟩, ⟨[], none, .point 10⟩, ⟨[], none, .point 20⟩, rfl, rfl, ?_⟩
  simp [items, rowId, lineId, read, step, flush, apply, addTo, stamp, List.lookup, finish, insSort, ins, selected]
  rfl

/-- **C60**, whole files: rows of different files have different identifiers. -/
theorem key_whole_files (s : Settings) (hid : s.noId = true) (hw : s.wholeFile = true) {f g n m : Nat} {r r' : Row P}
    (h : rowId s f n r = rowId s g m r') : f = g := by
  simp only [rowId, hid, hw, if_true] at h
  have h' : (Nat.repr f).toList = (Nat.repr g).toList := congrArg String.toList h
  rw [Nat.toList_repr, Nat.toList_repr] at h'
  have := congrArg (fun l => Nat.ofDigitChars 10 l 0) h'
  simpa only [Nat.ofDigitChars_ten_toDigits] using this

example : ∃ (s : Settings) (r r' : Row Nat), s.noId = false ∧ s.aggregator = String.ofList [','] ∧ r.fields.length = r'.fields.length ∧
    (∀ x ∈ r.fields, x ≠ "" ∧ ',' ∉ x.toList) ∧ (∀ x ∈ r'.fields, x ≠ "" ∧ ',' ∉ x.toList) ∧ rowId s 0 0 r ≠ rowId s 0 1 r' :=
  ⟨⟨false, false, false, ","⟩, ⟨["a", "b"], none, .point 10⟩, ⟨["a", "c"], none, .point 20⟩, rfl, by decide +kernel, rfl, by decide +kernel,
    by decide +kernel, by decide +kernel⟩

end MM.TrackCsv
