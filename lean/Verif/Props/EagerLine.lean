import Verif.Props.LazyLine
import Verif.Model.EagerLine

/-!
# C70: cached values of evaluated lines and segments
-/

set_option autoImplicit false
set_option linter.unusedSectionVars false

namespace MM.Line

variable {P : Type} [DecidableEq P] {R A : Type}

/-- A value that is missing and one that is not valid are the same to whoever asks `has_length`, … (common.hpp 35-38). -/
def shown {α : Type} : Cell α → Cell α
  | .uninit => .invalid
  | c => c

def Answer.shown : Answer R A → Answer R A
  | .len c => .len (MM.Line.shown c)
  | .angle c => .angle (MM.Line.shown c)

/-- All values are there and right. -/
structure Done (G : Geo P R A) (l : Lazy P R A) : Prop where
  lens : l.data.lengths = (segs l.pts).map (segLen G)
  azs : l.data.azimuths = fullAz G l.pts
  len : l.data.length = lengthCell G l.pts
  az : l.data.azimuth = azimuthCell G l.pts
  dirs : l.data.directions = directionsCell G id l.pts
  abs : l.data.absolute = directionsCell G G.abs l.pts

theorem Done.coh {G : Geo P R A} {l : Lazy P R A} (h : Done G l) : Coh G l :=
  ⟨.inr (h.lens ▸ matches_map _ _), .inr (h.azs ▸ matches_map _ _), .inr h.len, .inr h.az, .inr h.dirs, .inr h.abs⟩

/-- Either nothing was ever computed, on a line without points, or everything is there. -/
def ECoh (G : Geo P R A) (l : Lazy P R A) : Prop := l = Eager.blank ∨ Done G l

/-! ### Computing -/

theorem computeLength_lengths (G : Geo P R A) {l l' : Lazy P R A} (h : CellsOk (segLen G) l.pts l.data.lengths)
    (hu : l.data.length = .uninit) (hc : computeLength G l = .ok l') :
    l' = { l with data := { l.data with length := lengthCell G l.pts, lengths := (segs l.pts).map (segLen G) } } := by
  unfold computeLength at hc
  have hm := computeCells_ok _ h
  rw [hu] at hc
  simp only at hc
  rw [fill_eq _ _ _ hm.1 hm.2, Outcome.map_ok, Outcome.ok.injEq] at hc
  exact hc.symm

theorem computeLength_returns (G : Geo P R A) {l : Lazy P R A} (h : CellsOk (segLen G) l.pts l.data.lengths) :
    ∃ l', computeLength G l = .ok l' := by
  unfold computeLength
  have hm := computeCells_ok _ h
  cases l.data.length with
  | uninit => simp only; rw [fill_eq _ _ _ hm.1 hm.2, Outcome.map_ok]; exact ⟨_, rfl⟩
  | invalid => exact ⟨l, rfl⟩
  | val a => exact ⟨l, rfl⟩

theorem known_full {α : Type} {f : P × P → Cell α} {pts : List P} {cells : List (Cell α)} (h : Matches f pts cells)
    (hk : .uninit ∉ cells) : cells = (segs pts).map f := by
  apply List.ext_getElem?
  intro j
  rw [List.getElem?_map]
  cases hs : (segs pts)[j]? with
  | none =>
    rw [Option.map_none, List.getElem?_eq_none_iff, h.1]
    exact List.getElem?_eq_none_iff.1 hs
  | some s =>
    have hlt : j < cells.length := by rw [h.1]; exact (List.getElem?_eq_some_iff.1 hs).1
    have hc : cells[j]? = some cells[j] := List.getElem?_eq_getElem hlt
    rw [hc, Option.map_some]
    rcases h.2 j _ _ hc hs with h1 | h1
    · exact absurd (h1 ▸ List.getElem_mem hlt) hk
    · rw [h1]

theorem computeDirections_full (G : Geo P R A) {l : Lazy P R A} (h : CellsOk (segAz G) l.pts l.data.azimuths)
    (hk : .uninit ∉ l.data.azimuths) (hu : l.data.directions = .uninit ∨ l.data.absolute = .uninit) :
    computeDirections G l = .ok { l with data := { l.data with directions := directionsCell G id l.pts, absolute := directionsCell G G.abs l.pts, azimuths := fullAz G l.pts } } := by
  have hm := computeCells_ok _ h
  have hfull : computeCells (segAz G) l.pts l.data.azimuths = fullAz G l.pts := by
    apply known_full hm
    unfold computeCells
    split_ifs
    · intro hmem
      rw [List.mem_map] at hmem
      obtain ⟨s, _, hs⟩ := hmem
      exact segAz_init G s hs
    · exact hk
  unfold computeDirections
  rw [if_neg (by rcases hu with hu | hu <;> simp [hu, Cell.isUninit])]
  have hfill : fillAzimuths G (fullAz G l.pts) l.pts = .ok (fullAz G l.pts) := by
    unfold fillAzimuths
    split_ifs
    · have hm' := matches_map (segAz G) l.pts
      exact fill_eq _ _ _ hm'.1 hm'.2
    · rfl
  rw [hfull, hfill, Outcome.map_ok]
  rfl

/-- The part common to building, slicing, erasing and merging: if the entries are right and the totals are unknown, or right
in the case of the azimuth, all values are right afterwards. -/
theorem compute_done (G : Geo P R A) {l : Lazy P R A} (h1 : CellsOk (segLen G) l.pts l.data.lengths)
    (h2 : CellsOk (segAz G) l.pts l.data.azimuths) (hk : .uninit ∉ l.data.azimuths) (hl : l.data.length = .uninit)
    (hd : l.data.directions = .uninit ∨ l.data.absolute = .uninit) (az : Bool)
    (ha : if az then l.data.azimuth = .uninit ∨ l.data.azimuth = azimuthCell G l.pts else l.data.azimuth = azimuthCell G l.pts) :
    ∃ l', ((computeLength G l).bind fun l' => computeDirections G (if az then computeAzimuth G l' else l')) = .ok l' ∧
      l'.pts = l.pts ∧ Done G l' := by
  obtain ⟨l1, hl1⟩ := computeLength_returns G h1
  have e1 := computeLength_lengths G h1 hl hl1
  rw [hl1, Outcome.bind_ok]
  subst e1
  cases az with
  | false =>
    rw [if_neg (by simp)] at ha
    rw [if_neg (by simp), computeDirections_full G (l := { l with data := { l.data with length := lengthCell G l.pts, lengths := (segs l.pts).map (segLen G) } }) h2 hk hd]
    exact ⟨_, rfl, rfl, ⟨rfl, rfl, rfl, ha, rfl, rfl⟩⟩
  | true =>
    rw [if_pos rfl] at ha
    rw [if_pos rfl]
    have e2 : computeAzimuth G { l with data := { l.data with length := lengthCell G l.pts, lengths := (segs l.pts).map (segLen G) } }
        = { l with data := { l.data with length := lengthCell G l.pts, lengths := (segs l.pts).map (segLen G), azimuth := azimuthCell G l.pts } } := by
      unfold computeAzimuth
      cases hc : l.data.azimuth with
      | uninit => rfl
      | invalid =>
        rcases ha with ha | ha
        · rw [hc] at ha; cases ha
        · simp only; rw [← ha, hc]
      | val a =>
        rcases ha with ha | ha
        · rw [hc] at ha; cases ha
        · simp only; rw [← ha, hc]
    rw [e2, computeDirections_full G (l := { l with data := { l.data with length := lengthCell G l.pts, lengths := (segs l.pts).map (segLen G), azimuth := azimuthCell G l.pts } }) h2 hk hd]
    exact ⟨_, rfl, rfl, ⟨rfl, rfl, rfl, rfl, rfl, rfl⟩⟩

theorem compute_eq (G : Geo P R A) (l : Lazy P R A) :
    Lazy.compute G l = (computeLength G l).bind fun l' => computeDirections G (if true then computeAzimuth G l' else l') := by
  simp [Lazy.compute]

/-! ### Building -/

/-- Building a line from points always returns and all values are right. -/
theorem new_done (G : Geo P R A) (pts : List P) : ∃ l, Eager.new G pts = .ok l ∧ l.pts = pts ∧ Done G l := by
  unfold Eager.new
  rw [compute_eq]
  exact compute_done G (l := ⟨pts, Data.new⟩) (.inl rfl) (.inl rfl) (by simp [Data.new]) rfl (.inl rfl) true (.inl rfl)

theorem assignPoints_done (G : Geo P R A) (l : Lazy P R A) (pts : List P) :
    ∃ l', Eager.assignPoints G l pts = .ok l' ∧ l'.pts = pts ∧ Done G l' := by
  unfold Eager.assignPoints
  rw [compute_eq]
  exact compute_done G (l := ⟨pts, l.data.invalidate true true true true true⟩) (.inl rfl) (.inl rfl)
    (by simp [Data.invalidate]) rfl (.inl rfl) true (.inl rfl)

/-! ### Slices -/

theorem fullAz_known (G : Geo P R A) (pts : List P) : .uninit ∉ fullAz G pts := by
  intro hmem
  unfold fullAz at hmem
  rw [List.mem_map] at hmem
  obtain ⟨s, _, hs⟩ := hmem
  exact segAz_init G s hs

theorem sub_done (G : Geo P R A) {l l1 : Lazy P R A} (h : Done G l) {a b : Nat} (hs : l.sub a b = .ok l1)
    (hne : ¬ (a = 0 ∧ b + 1 = l.pts.length)) :
    ∃ l', Eager.sub G l a b = .ok l' ∧ l'.pts = l1.pts ∧ Done G l' := by
  have hc := coh_sub G h.coh hs hne
  unfold Eager.sub
  rw [hs, Outcome.bind_ok, compute_eq]
  unfold Lazy.sub subLine at hs
  split_ifs at hs with hr
  · simp only [Outcome.map_ok, Outcome.ok.injEq] at hs
    have hunk : l1.data.length = .uninit ∧ l1.data.azimuth = .uninit ∧ l1.data.directions = .uninit ∧ .uninit ∉ l1.data.azimuths := by
      rw [← hs]
      unfold subData
      split_ifs with hle
      · exact ⟨rfl, rfl, rfl, by simp [Data.new]⟩
      · have hlt : a < b - 1 := by omega
        refine ⟨takeOver_uninit _ h.coh.lens hlt hne, takeOver_uninit _ h.coh.lens hlt hne, takeOver_uninit _ h.coh.azs hlt hne, ?_⟩
        simp only [slice]
        split_ifs
        · intro hmem
          exact fullAz_known G l.pts (h.azs ▸ List.mem_of_mem_drop (List.mem_of_mem_take hmem))
        · simp
    exact compute_done G hc.lens hc.azs hunk.2.2.2 hunk.1 (.inl hunk.2.2.1) true (.inl hunk.2.1)
  · cases hs

/-! ### Erasing -/

theorem eraseCell_known {α : Type} {f : P × P → Cell α} (hf : ∀ s, f s ≠ .uninit) {pts : List P} {cells : List (Cell α)}
    (h : .uninit ∉ cells) (i : Nat) : .uninit ∉ eraseCell f pts cells i := by
  have he : ∀ k, .uninit ∉ cells.eraseIdx k := fun k hm => h (List.mem_of_mem_eraseIdx hm)
  unfold eraseCell
  generalize (if i < cells.length then i else i - 1) = k
  by_cases h1 : cells ≠ [] ∧ i ≤ cells.length
  · rw [if_pos h1]
    by_cases h2 : cells.eraseIdx k ≠ [] ∧ 0 < i ∧ i < pts.length
    · rw [if_pos h2]
      cases (segs pts)[i - 1]? with
      | none => exact he _
      | some s =>
        intro hm
        rcases List.mem_or_eq_of_mem_set hm with hm | hm
        · exact he _ hm
        · exact hf _ hm.symm
    · rw [if_neg h2]; exact he _
  · rw [if_neg h1]; exact h

theorem foldl_eraseQuiet_known (G : Geo P R A) (is : List Nat) : ∀ l : Lazy P R A, .uninit ∉ l.data.azimuths →
    .uninit ∉ (is.foldl (Lazy.eraseQuiet G) l).data.azimuths := by
  induction is with
  | nil => intro l h; exact h
  | cons i is ih => intro l h; exact ih _ (eraseCell_known (segAz_init G) h i)

theorem invalidate_azimuth (d : Data R A) (az : Bool) :
    (d.invalidate true az true false false).azimuth = if az then .uninit else d.azimuth := rfl

theorem eraseOne_done (G : Geo P R A) {l : Lazy P R A} (h : Done G l) (i : Nat) (hi : i + 1 = l.pts.length → i = 0) :
    ∃ l', Eager.eraseOne G l i = .ok l' ∧ l'.pts = eraseAt l.pts i ∧ Done G l' := by
  have hc := coh_eraseOne G h.coh i hi
  unfold Eager.eraseOne Lazy.rebuild
  generalize haz : (decide (i = 0) || decide (i + 1 = (l.eraseQuiet G i).pts.length)) = az
  refine compute_done G (l := { l.eraseQuiet G i with data := (l.eraseQuiet G i).data.invalidate true az true false false })
    hc.lens hc.azs (eraseCell_known (segAz_init G) (h.azs ▸ fullAz_known G l.pts) i) rfl (.inl rfl) az ?_
  have ha := hc.az
  simp only [Lazy.eraseOne, invalidate_azimuth, haz] at ha ⊢
  cases az with
  | true => exact ha
  | false =>
    rcases ha with ha | ha
    · have e : (l.eraseQuiet G i).data.azimuth = l.data.azimuth := rfl
      simp only [Bool.false_eq_true, if_false] at ha
      rw [e, h.az] at ha
      exact absurd ha (azimuthCell_init G _)
    · simpa using ha

theorem eraseMany_done (G : Geo P R A) {l : Lazy P R A} (h : Done G l) {is : List Nat} (hs : is.Pairwise (· < ·))
    (hr : ∀ i ∈ is, i < l.pts.length) : ∃ l', Eager.eraseMany G l is = .ok l' ∧ l'.pts = eraseAll l.pts is ∧ Done G l' := by
  have hc := coh_eraseMany G h.coh hs hr
  unfold Eager.eraseMany
  unfold Lazy.eraseMany at hc
  split_ifs at hc ⊢ with hn
  · subst hn
    exact ⟨l, rfl, rfl, h⟩
  · obtain ⟨hp, ha'⟩ := foldl_eraseQuiet_pts G is.reverse l
    unfold Lazy.rebuild eraseAll
    rw [← hp]
    generalize haz : touchesEnds l is = az at *
    refine compute_done G (l := { is.reverse.foldl (Lazy.eraseQuiet G) l with data := (is.reverse.foldl (Lazy.eraseQuiet G) l).data.invalidate true az true false false })
      hc.lens hc.azs (foldl_eraseQuiet_known G _ _ (h.azs ▸ fullAz_known G l.pts)) rfl (.inl rfl) az ?_
    have ha := hc.az
    simp only [invalidate_azimuth] at ha ⊢
    cases az with
    | true => exact ha
    | false =>
      rcases ha with ha | ha
      · simp only [Bool.false_eq_true, if_false] at ha
        rw [ha', h.az] at ha
        exact absurd ha (azimuthCell_init G _)
      · simpa using ha

/-! ### Merging -/

theorem pad_known {α : Type} {f : P × P → Cell α} (pts : List P) :
    pad pts ((segs pts).map f) = (segs pts).map f := by
  unfold pad
  split_ifs
  · rfl
  · simp [segs_length]

theorem ecoh_azs {G : Geo P R A} {l : Lazy P R A} (h : ECoh G l) : l.data.azimuths = fullAz G l.pts := by
  rcases h with rfl | h
  · rfl
  · exact h.azs

theorem ecoh_coh {G : Geo P R A} {l : Lazy P R A} (h : ECoh G l) : Coh G l := by
  rcases h with rfl | h
  · exact coh_new G []
  · exact h.coh

theorem foldl_pad_known (G : Geo P R A) (ns : List (Lazy P R A)) (hn : ∀ n ∈ ns, ECoh G n) : ∀ cells : List (Cell A),
    .uninit ∉ cells → .uninit ∉ ns.foldl (fun acc n => acc ++ pad n.pts n.data.azimuths) cells := by
  induction ns with
  | nil => intro cells h; exact h
  | cons n ns ih =>
    intro cells h
    rw [List.foldl_cons]
    apply ih (fun m hm => hn m (List.mem_cons_of_mem _ hm))
    rw [ecoh_azs (hn n List.mem_cons_self)]
    unfold fullAz
    rw [pad_known]
    intro hm
    rcases List.mem_append.1 hm with hm | hm
    · exact h hm
    · exact fullAz_known G n.pts hm

theorem merge_done (G : Geo P R A) {l : Lazy P R A} {ns : List (Lazy P R A)} {r : List P} (h : ECoh G l)
    (hn : ∀ n ∈ ns, ECoh G n) (hm : merge l.pts (ns.map Lazy.pts) = .ok r) :
    ∃ l', Eager.merge G l ns = .ok (l', true) ∧ l'.pts = r ∧ Done G l' := by
  have hp := mergePts_iff.2 hm
  unfold Eager.merge
  rw [hp, if_pos rfl]
  have hc := foldl_pad_ok (f := segLen G) (fun n => n.data.lengths) ns _ _ _ (pad_ok (ecoh_coh h).lens) (fun n hh => (ecoh_coh (hn n hh)).lens) hm
  have ha := foldl_pad_ok (f := segAz G) (fun n => n.data.azimuths) ns _ _ _ (pad_ok (ecoh_coh h).azs) (fun n hh => (ecoh_coh (hn n hh)).azs) hm
  have hk : .uninit ∉ (mergeData l ns).azimuths := by
    apply foldl_pad_known G ns hn
    rw [ecoh_azs h]
    unfold fullAz
    rw [pad_known]
    exact fullAz_known G l.pts
  obtain ⟨l', h1, h2, h3⟩ := compute_done G (l := ⟨r, (mergeData l ns).invalidate true true true false false⟩) (.inr hc) (.inr ha) hk rfl (.inl rfl) true (.inl rfl)
  unfold Lazy.rebuild
  rw [h1, Outcome.map_ok]
  exact ⟨l', rfl, h2, h3⟩

/-! ### Building from lazily evaluated lines -/

/-- A total that is known was computed from entries that are all there, except for the azimuth of the only segment of a line
of two points. -/
structure Totals (G : Geo P R A) (l : Lazy P R A) : Prop where
  len : l.data.length ≠ .uninit → l.data.lengths = (segs l.pts).map (segLen G)
  dirs : l.data.directions ≠ .uninit → l.data.absolute ≠ .uninit → l.pts.length ≠ 2 → l.data.azimuths = fullAz G l.pts

theorem short_full {α : Type} {f : P × P → Cell α} {pts : List P} {cells : List (Cell α)} (h : Matches f pts cells)
    (hs : cells.length < 2) (hp : pts.length ≠ 2) : cells = (segs pts).map f := by
  have := h.1
  rw [segs_length] at this
  have h0 : cells.length = 0 := by omega
  have h1 : (segs pts).length = 0 := by rw [segs_length]; omega
  rw [List.length_eq_zero_iff] at h0 h1
  rw [h0, h1, List.map_nil]

theorem initCell_full {α : Type} {f : P × P → Cell α} (hf : ∀ s, f s ≠ .uninit) {pts : List P} {pos : Nat}
    {r : List (Cell α) × Cell α} (h : initCell f pts ((segs pts).map f) pos = .ok r) : r.1 = (segs pts).map f := by
  unfold initCell at h
  rw [List.getElem?_map] at h
  cases hs : (segs pts)[pos]? with
  | none => rw [hs] at h; cases h
  | some s =>
    rw [hs, Option.map_some] at h
    cases hc : f s with
    | uninit => exact absurd hc (hf s)
    | invalid => rw [hc] at h; simp only [Outcome.ok.injEq] at h; rw [← h]
    | val a => rw [hc] at h; simp only [Outcome.ok.injEq] at h; rw [← h]

theorem computeCells_full {α : Type} (f : P × P → Cell α) (pts : List P) :
    computeCells f pts ((segs pts).map f) = (segs pts).map f := by
  unfold computeCells
  split_ifs <;> rfl

theorem computeDirections_totals (G : Geo P R A) {l l' : Lazy P R A} (hc : Coh G l) (h : Totals G l)
    (he : computeDirections G l = .ok l') : Totals G l' ∧ (l.pts.length ≠ 2 → l'.data.azimuths = fullAz G l.pts) := by
  unfold computeDirections at he
  by_cases hi : (!l.data.directions.isUninit && !l.data.absolute.isUninit) = true
  · rw [if_pos hi, Outcome.ok.injEq] at he
    subst he
    refine ⟨h, fun hp => h.dirs ?_ ?_ hp⟩
    · intro hh; rw [hh] at hi; simp [Cell.isUninit] at hi
    · intro hh; rw [hh] at hi; simp [Cell.isUninit] at hi
  · rw [if_neg hi] at he
    have hm := computeCells_ok _ hc.azs
    have key : ∀ cells, fillAzimuths G (computeCells (segAz G) l.pts l.data.azimuths) l.pts = .ok cells →
        l.pts.length ≠ 2 → cells = fullAz G l.pts := by
      intro cells hcell hp
      unfold fillAzimuths at hcell
      split_ifs at hcell with h2
      · rw [fill_eq _ _ _ hm.1 hm.2, Outcome.ok.injEq] at hcell
        exact hcell.symm
      · rw [Outcome.ok.injEq] at hcell
        rw [← hcell]
        exact short_full hm (by omega) hp
    cases hcell : fillAzimuths G (computeCells (segAz G) l.pts l.data.azimuths) l.pts with
    | ok cells =>
      rw [hcell, Outcome.map_ok, Outcome.ok.injEq] at he
      subst he
      exact ⟨⟨h.len, fun _ _ hp => key cells hcell hp⟩, fun hp => key cells hcell hp⟩
    | throws => rw [hcell] at he; cases he
    | ub => rw [hcell] at he; cases he

theorem computeLength_totals (G : Geo P R A) {l l' : Lazy P R A} (hc : Coh G l) (h : Totals G l)
    (he : computeLength G l = .ok l') : Totals G l' ∧ l'.data.lengths = (segs l.pts).map (segLen G) ∧
      l'.data.length = lengthCell G l.pts ∧ l'.pts = l.pts ∧ l'.data.azimuths = l.data.azimuths ∧ Coh G l' := by
  cases hu : l.data.length with
  | uninit =>
    have := computeLength_lengths G hc.lens hu he
    subst this
    exact ⟨⟨fun _ => rfl, h.dirs⟩, rfl, rfl, rfl, rfl, ⟨.inr (matches_map _ _), hc.azs, .inr rfl, hc.az, hc.dirs, hc.abs⟩⟩
  | invalid =>
    have : l' = l := by unfold computeLength at he; rw [hu] at he; simpa using he.symm
    subst this
    refine ⟨h, h.len (by rw [hu]; simp), ?_, rfl, rfl, hc⟩
    rcases hc.len with h1 | h1
    · rw [hu] at h1; cases h1
    · exact h1
  | val a =>
    have : l' = l := by unfold computeLength at he; rw [hu] at he; simpa using he.symm
    subst this
    refine ⟨h, h.len (by rw [hu]; simp), ?_, rfl, rfl, hc⟩
    rcases hc.len with h1 | h1
    · rw [hu] at h1; cases h1
    · exact h1

theorem computeAzimuth_totals (G : Geo P R A) {l : Lazy P R A} (h : Totals G l) : Totals G (computeAzimuth G l) := by
  unfold computeAzimuth
  cases l.data.azimuth with
  | uninit => exact ⟨h.len, h.dirs⟩
  | invalid => exact h
  | val a => exact h

theorem reach_totals (G : Geo P R A) {l : Lazy P R A} (h : Reach G l) : Totals G l := by
  induction h with
  | new pts => exact ⟨fun hh => absurd rfl hh, fun hh => absurd rfl hh⟩
  | @query l l' q a hr hq ih =>
    have hc := reach_coh G hr
    cases q with
    | directionAt pos => simp [Line.query, initDirection] at hq
    | length =>
      obtain ⟨l1, h1, _⟩ := computeLength_ok G hc
      simp only [Line.query, h1, Outcome.map_ok, Outcome.ok.injEq, Prod.mk.injEq] at hq
      rw [← hq.2]
      exact (computeLength_totals G hc ih h1).1
    | azimuth =>
      simp only [Line.query, Outcome.ok.injEq, Prod.mk.injEq] at hq
      rw [← hq.2]
      exact computeAzimuth_totals G ih
    | directions =>
      obtain ⟨l1, h1, _⟩ := computeDirections_ok G hc
      simp only [Line.query, h1, Outcome.map_ok, Outcome.ok.injEq, Prod.mk.injEq] at hq
      rw [← hq.2]
      exact (computeDirections_totals G hc ih h1).1
    | absolute =>
      obtain ⟨l1, h1, _⟩ := computeDirections_ok G hc
      simp only [Line.query, h1, Outcome.map_ok, Outcome.ok.injEq, Prod.mk.injEq] at hq
      rw [← hq.2]
      exact (computeDirections_totals G hc ih h1).1
    | lengthAt pos =>
      cases hi : initCell (segLen G) l.pts (computeCells (segLen G) l.pts l.data.lengths) pos with
      | ok r =>
        simp only [Line.query, hi, Outcome.map_ok, Outcome.ok.injEq, Prod.mk.injEq] at hq
        rw [← hq.2]
        refine ⟨fun hh => ?_, ih.dirs⟩
        rw [ih.len hh, computeCells_full] at hi
        exact initCell_full (segLen_init G) hi
      | throws => simp [Line.query, hi] at hq
      | ub => simp [Line.query, hi] at hq
    | azimuthAt pos =>
      cases hi : initCell (segAz G) l.pts (computeCells (segAz G) l.pts l.data.azimuths) pos with
      | ok r =>
        simp only [Line.query, hi, Outcome.map_ok, Outcome.ok.injEq, Prod.mk.injEq] at hq
        rw [← hq.2]
        refine ⟨ih.len, fun hd ha hp => ?_⟩
        rw [ih.dirs hd ha hp] at hi
        unfold fullAz at hi
        rw [computeCells_full] at hi
        exact initCell_full (segAz_init G) hi
      | throws => simp [Line.query, hi] at hq
      | ub => simp [Line.query, hi] at hq
  | @sub l l' a b hr hs hne ih =>
    have hc := reach_coh G hr
    unfold Lazy.sub subLine at hs
    split_ifs at hs with hb
    · simp only [Outcome.map_ok, Outcome.ok.injEq] at hs
      subst hs
      unfold subData
      split_ifs with hle
      · exact ⟨fun hh => absurd rfl hh, fun hh => absurd rfl hh⟩
      · have hlt : a < b - 1 := by omega
        exact ⟨fun hh => absurd (takeOver_uninit _ hc.lens hlt hne) hh, fun hh => absurd (takeOver_uninit _ hc.azs hlt hne) hh⟩
    · cases hs
  | erase _ _ _ => exact ⟨fun hh => absurd rfl hh, fun hh => absurd rfl hh⟩
  | eraseMany _ _ _ ih =>
    unfold Lazy.eraseMany
    split_ifs
    · exact ih
    · exact ⟨fun hh => absurd rfl hh, fun hh => absurd rfl hh⟩
  | merge _ _ hm _ _ =>
    unfold Lazy.merge at hm
    split_ifs at hm with hc
    · simp only [Prod.mk.injEq, and_true] at hm
      subst hm
      exact ⟨fun hh => absurd rfl hh, fun hh => absurd rfl hh⟩
    · simp at hm
  | assign _ _ => exact ⟨fun hh => absurd rfl hh, fun hh => absurd rfl hh⟩

/-- An evaluated line built from a lazily evaluated one with any history (C27) is right, unless it has exactly two points
(`eager_of_lazy_fails`). -/
theorem ofLazy_done (G : Geo P R A) {l : Lazy P R A} (h : Reach G l) (hp : l.pts.length ≠ 2) :
    ∃ l', Eager.ofLazy G l = .ok l' ∧ l'.pts = l.pts ∧ Done G l' := by
  have hc := reach_coh G h
  have ht := reach_totals G h
  obtain ⟨l1, h1, _⟩ := computeLength_ok G hc
  obtain ⟨t1, e1, e2, e3, _, c1⟩ := computeLength_totals G hc ht h1
  obtain ⟨p2, c2, a2⟩ := computeAzimuth_ok G c1
  have t2 := computeAzimuth_totals G t1
  have k2 : (computeAzimuth G l1).data.lengths = l1.data.lengths ∧ (computeAzimuth G l1).data.length = l1.data.length := by
    unfold computeAzimuth
    cases l1.data.azimuth <;> exact ⟨rfl, rfl⟩
  obtain ⟨l3, h3, p3, c3, d3, b3⟩ := computeDirections_ok G c2
  obtain ⟨t3, f3⟩ := computeDirections_totals G c2 t2 h3
  have k3 : l3.data.lengths = (computeAzimuth G l1).data.lengths ∧ l3.data.length = (computeAzimuth G l1).data.length ∧
      l3.data.azimuth = (computeAzimuth G l1).data.azimuth := by
    unfold computeDirections at h3
    by_cases hi : (!(computeAzimuth G l1).data.directions.isUninit && !(computeAzimuth G l1).data.absolute.isUninit) = true
    · rw [if_pos hi, Outcome.ok.injEq] at h3
      rw [h3]; exact ⟨rfl, rfl, rfl⟩
    · rw [if_neg hi] at h3
      cases hcell : fillAzimuths G (computeCells (segAz G) (computeAzimuth G l1).pts (computeAzimuth G l1).data.azimuths) (computeAzimuth G l1).pts with
      | ok cells => rw [hcell, Outcome.map_ok, Outcome.ok.injEq] at h3; rw [← h3]; exact ⟨rfl, rfl, rfl⟩
      | throws => rw [hcell] at h3; cases h3
      | ub => rw [hcell] at h3; cases h3
  have pe : l3.pts = l.pts := by rw [p3, p2, e3]
  refine ⟨l3, ?_, pe, ?_⟩
  · unfold Eager.ofLazy Lazy.compute
    rw [h1, Outcome.bind_ok, h3]
  · refine ⟨?_, ?_, ?_, ?_, ?_, ?_⟩
    · rw [k3.1, k2.1, e1, pe]
    · rw [f3 (by rw [p2, e3]; exact hp), p2, e3, pe]
    · rw [k3.2.1, k2.2, e2, pe]
    · rw [k3.2.2, a2, e3, pe]
    · rw [d3, p2, e3, pe]
    · rw [b3, p2, e3, pe]

/-- A lazily evaluated line of two points is merged with another one, then an evaluated line is built from it. -/
example : ∃ l l' : Lazy Nat Nat Nat, Reach demoGeo l ∧ l.pts = [0, 1, 9] ∧ Eager.ofLazy demoGeo l = .ok l' ∧
    l'.data.azimuths = [.val 1, .val 109] ∧ l'.data.length = .val 9 :=
  ⟨_, _, .merge (ns := [Lazy.new [1, 9]]) (.new [0, 1]) (by intro n hn; simp at hn; subst hn; exact .new _) rfl, rfl, rfl, rfl,
    rfl⟩

/-! ### Histories -/

/-- Lines that result from a history of operations on evaluated lines.  Left out: slices from the first to the last but one
point, erasing only the last point, erasing positions that do not exist or in another order, a merge that throws, assigning
plain or lazily evaluated lines, building from a lazily evaluated line of two points that has a history. -/
inductive EReach (G : Geo P R A) : Lazy P R A → Prop where
  | blank : EReach G Eager.blank
  | new {pts : List P} {l : Lazy P R A} : Eager.new G pts = .ok l → EReach G l
  | ofNew {pts : List P} {l : Lazy P R A} : Eager.ofLazy G (Lazy.new pts) = .ok l → EReach G l
  | ofLazy {l l' : Lazy P R A} : Reach G l → l.pts.length ≠ 2 → Eager.ofLazy G l = .ok l' → EReach G l'
  | sub {l l' : Lazy P R A} {a b : Nat} : EReach G l → Eager.sub G l a b = .ok l' → ¬ (a = 0 ∧ b + 1 = l.pts.length) → EReach G l'
  | erase {l l' : Lazy P R A} {i : Nat} : EReach G l → (i + 1 = l.pts.length → i = 0) → i < l.pts.length →
      Eager.eraseOne G l i = .ok l' → EReach G l'
  | eraseMany {l l' : Lazy P R A} {is : List Nat} : EReach G l → is.Pairwise (· < ·) → (∀ i ∈ is, i < l.pts.length) →
      Eager.eraseMany G l is = .ok l' → EReach G l'
  | merge {l l' : Lazy P R A} {ns : List (Lazy P R A)} : EReach G l → (∀ n ∈ ns, EReach G n) →
      Eager.merge G l ns = .ok (l', true) → EReach G l'
  | assign {l l' : Lazy P R A} {pts : List P} : EReach G l → Eager.assignPoints G l pts = .ok l' → EReach G l'

theorem reach_ecoh (G : Geo P R A) {l : Lazy P R A} (h : EReach G l) : ECoh G l := by
  induction h with
  | blank => exact .inl rfl
  | @new pts l he =>
    obtain ⟨l', h1, _, h3⟩ := new_done G pts
    rw [h1, Outcome.ok.injEq] at he
    exact .inr (he ▸ h3)
  | @ofNew pts l he =>
    obtain ⟨l', h1, _, h3⟩ := new_done G pts
    have : Eager.ofLazy G (Lazy.new pts) = Eager.new G pts := rfl
    rw [this, h1, Outcome.ok.injEq] at he
    exact .inr (he ▸ h3)
  | @ofLazy l l' hr hp he =>
    obtain ⟨l2, h1, _, h3⟩ := ofLazy_done G hr hp
    rw [h1, Outcome.ok.injEq] at he
    exact .inr (he ▸ h3)
  | @sub l l' a b _ hs hne ih =>
    rcases ih with rfl | ih
    · simp [Eager.sub, Lazy.sub, subLine, Eager.blank] at hs
    · cases hl : l.sub a b with
      | ok l1 =>
        obtain ⟨l2, h1, _, h3⟩ := sub_done G ih hl hne
        rw [h1, Outcome.ok.injEq] at hs
        exact .inr (hs ▸ h3)
      | throws => simp [Eager.sub, hl] at hs
      | ub => simp [Eager.sub, hl] at hs
  | @erase l l' i _ hi hlt he ih =>
    rcases ih with rfl | ih
    · simp [Eager.blank] at hlt
    · obtain ⟨l2, h1, _, h3⟩ := eraseOne_done G ih i hi
      rw [h1, Outcome.ok.injEq] at he
      exact .inr (he ▸ h3)
  | @eraseMany l l' is _ hs hr he ih =>
    rcases ih with rfl | ih
    · have : is = [] := List.eq_nil_iff_forall_not_mem.2 fun i hi => by simpa [Eager.blank] using hr i hi
      subst this
      simp [Eager.eraseMany] at he
      exact .inl he.symm
    · obtain ⟨l2, h1, _, h3⟩ := eraseMany_done G ih hs hr
      rw [h1, Outcome.ok.injEq] at he
      exact .inr (he ▸ h3)
  | @merge l l' ns _ _ hm ih ihn =>
    cases hr : merge l.pts (ns.map Lazy.pts) with
    | ok r =>
      obtain ⟨l2, h1, _, h3⟩ := merge_done G ih ihn hr
      rw [h1, Outcome.ok.injEq, Prod.mk.injEq] at hm
      exact .inr (hm.1 ▸ h3)
    | throws =>
      exfalso
      unfold Eager.merge at hm
      split_ifs at hm with hc
      · have := mergePts_iff.1 (show mergePts l.pts (ns.map Lazy.pts) = ((mergePts l.pts (ns.map Lazy.pts)).1, true) by rw [← hc])
        rw [hr] at this
        cases this
      · simp at hm
    | ub =>
      exfalso
      unfold Eager.merge at hm
      split_ifs at hm with hc
      · have := mergePts_iff.1 (show mergePts l.pts (ns.map Lazy.pts) = ((mergePts l.pts (ns.map Lazy.pts)).1, true) by rw [← hc])
        rw [hr] at this
        cases this
      · simp at hm
  | @assign l l' pts _ he _ =>
    obtain ⟨l2, h1, _, h3⟩ := assignPoints_done G l pts
    rw [h1, Outcome.ok.injEq] at he
    exact .inr (he ▸ h3)

theorem shown_toCell {α : Type} (o : Option α) : shown (toCell o) = toCell o := by
  cases o <;> rfl

theorem done_answers (G : Geo P R A) {l : Lazy P R A} (h : Done G l) (q : Query) :
    (Eager.query G l q).map Answer.shown = expected G l.pts q := by
  cases q with
  | length => simp only [Eager.query, h.len, lengthCell_eq, Outcome.map_ok, Answer.shown, shown_toCell, expected]
  | azimuth => simp only [Eager.query, h.az, azimuthCell_eq, Outcome.map_ok, Answer.shown, shown_toCell, expected]
  | directions => simp only [Eager.query, h.dirs, directionsCell_eq, Outcome.map_ok, Answer.shown, shown_toCell, expected]
  | absolute => simp only [Eager.query, h.abs, directionsCell_eq, Outcome.map_ok, Answer.shown, shown_toCell, expected]
  | lengthAt pos =>
    simp only [Eager.query, h.lens, List.getElem?_map, expected]
    cases (segs l.pts)[pos]? with
    | none => rfl
    | some s => simp only [Option.map_some, Outcome.map_ok, Answer.shown, segLen_cell, shown_toCell]
  | azimuthAt pos =>
    simp only [Eager.query, h.azs, fullAz, List.getElem?_map, expected]
    cases (segs l.pts)[pos]? with
    | none => rfl
    | some s => simp only [Option.map_some, Outcome.map_ok, Answer.shown, segAz_cell, shown_toCell]
  | directionAt pos =>
    simp only [Eager.query, h.azs, fullAz, expected]
    rw [← List.map_tail, List.zip_map, List.getElem?_map]
    cases ((segs l.pts).zip (segs l.pts).tail)[pos]? with
    | none => rfl
    | some s =>
      simp only [Option.map_some, Outcome.map_ok, Answer.shown, Prod.map]
      congr 2
      unfold segAz plainDirectionAt
      by_cases h1 : s.1.1 = s.1.2 <;> by_cases h2 : s.2.1 = s.2.2 <;> simp [h1, h2, dirCell, shown, toCell]

/-- **C70.**  After any such history every query is answered as by a plain line with the same points; this includes the
direction at a position.
Missing from the full property: the operations left out in `EReach` (counterexamples below). -/
theorem eager_agrees_partial (G : Geo P R A) {l : Lazy P R A} (h : EReach G l) (q : Query) :
    (Eager.query G l q).map Answer.shown = expected G l.pts q := by
  rcases reach_ecoh G h with rfl | h
  · cases q <;> rfl
  · exact done_answers G h q

/-- Building from points, slicing inside the line, sorted erasure of existing points, and merging of lines that meet always
return, with the points of the plain operations. -/
theorem eager_returns_partial (G : Geo P R A) (pts : List P) {l : Lazy P R A} (h : EReach G l) :
    (∃ l', Eager.new G pts = .ok l' ∧ l'.pts = pts) ∧
    (∀ a b s, subLine l.pts a b = .ok s → ¬ (a = 0 ∧ b + 1 = l.pts.length) → ∃ l', Eager.sub G l a b = .ok l' ∧ l'.pts = s) ∧
    (∀ is : List Nat, is.Pairwise (· < ·) → (∀ i ∈ is, i < l.pts.length) →
      ∃ l', Eager.eraseMany G l is = .ok l' ∧ l'.pts = eraseAll l.pts is) ∧
    (∀ (ns : List (Lazy P R A)) r, (∀ n ∈ ns, EReach G n) → merge l.pts (ns.map Lazy.pts) = .ok r →
      ∃ l', Eager.merge G l ns = .ok (l', true) ∧ l'.pts = r) := by
  refine ⟨?_, ?_, ?_, ?_⟩
  · obtain ⟨l', h1, h2, _⟩ := new_done G pts
    exact ⟨l', h1, h2⟩
  · intro a b s hs hne
    rcases reach_ecoh G h with rfl | hd
    · simp [subLine, Eager.blank] at hs
    · have hl : l.sub a b = .ok ⟨s, subData l.data a b⟩ := by unfold Lazy.sub; rw [hs, Outcome.map_ok]
      obtain ⟨l', h1, h2, _⟩ := sub_done G hd hl hne
      exact ⟨l', h1, h2⟩
  · intro is hs hr
    rcases reach_ecoh G h with rfl | hd
    · have : is = [] := List.eq_nil_iff_forall_not_mem.2 fun i hi => by simpa [Eager.blank] using hr i hi
      subst this
      exact ⟨_, rfl, rfl⟩
    · obtain ⟨l', h1, h2, _⟩ := eraseMany_done G hd hs hr
      exact ⟨l', h1, h2⟩
  · intro ns r hn hm
    obtain ⟨l', h1, h2, _⟩ := merge_done G (reach_ecoh G h) (fun n hh => reach_ecoh G (hn n hh)) hm
    exact ⟨l', h1, h2⟩

/-- A line is built, merged with another one that starts where it ends, and a point in the middle is erased. -/
example : ∃ l : Lazy Nat Nat Nat, EReach demoGeo l ∧ l.pts = [0, 1, 9] ∧
    Eager.query demoGeo l (.directionAt 0) = .ok (.angle (.val 110)) := by
  obtain ⟨a, ha, hap, had⟩ := new_done demoGeo [0, 1, 2]
  obtain ⟨b, hb, hbp, hbd⟩ := new_done demoGeo [2, 9]
  have hra : EReach demoGeo a := .new ha
  have hrb : EReach demoGeo b := .new hb
  obtain ⟨c, hc, hcp, hcd⟩ := merge_done demoGeo (r := [0, 1, 2, 9]) (.inr had) (ns := [b])
    (by intro n hn; simp at hn; subst hn; exact .inr hbd) (by rw [List.map_cons, hap, hbp]; decide)
  have hrc : EReach demoGeo c := .merge hra (by intro n hn; simp at hn; subst hn; exact hrb) hc
  obtain ⟨d, hd, hdp, hdd⟩ := eraseMany_done demoGeo hcd (is := [2]) (by decide) (by rw [hcp]; decide)
  refine ⟨d, .eraseMany hrc (by decide) (by rw [hcp]; decide) hd, by rw [hdp, hcp]; decide, ?_⟩
  have hp : d.pts = [0, 1, 9] := by rw [hdp, hcp]; decide
  unfold Eager.query
  simp only [hdd.azs, hp]
  decide

/-! ### Counterexamples -/

/-- **C70 fails**: a line of two points that was sliced from a longer one as `sub_rich_line(0, size - 1)` has the length of
the longer one. -/
theorem eager_sub_fails : ∃ l l' : Lazy Nat Nat Nat, EReach demoGeo l ∧ Eager.sub demoGeo l 0 2 = .ok l' ∧ l'.pts = [0, 1] ∧
    Eager.query demoGeo l' .length = .ok (.len (.val 9)) ∧ plainLength demoGeo [0, 1] = some 1 :=
  ⟨_, _, .new (pts := [0, 1, 9]) rfl, rfl, rfl, rfl, by decide⟩

/-- **C70 fails**: erasing the last point keeps the azimuth of the line with that point. -/
theorem eager_erase_fails : ∃ l l' : Lazy Nat Nat Nat, EReach demoGeo l ∧ Eager.eraseOne demoGeo l 2 = .ok l' ∧
    l'.pts = [0, 1] ∧ Eager.query demoGeo l' .azimuth = .ok (.angle (.val 9)) ∧ plainAzimuth demoGeo [0, 1] = some 1 :=
  ⟨_, _, .new (pts := [0, 1, 9]) rfl, rfl, rfl, rfl, by decide⟩

/-- **C70 fails**: an evaluated line that a plain line is assigned to keeps all its values. -/
theorem eager_assign_plain_fails : ∃ l l' : Lazy Nat Nat Nat, EReach demoGeo l ∧
    Eager.assignPlain demoGeo l [3, 4] = .ok l' ∧ l'.pts = [3, 4] ∧
    Eager.query demoGeo l' .length = .ok (.len (.val 9)) ∧ plainLength demoGeo [3, 4] = some 1 :=
  ⟨_, _, .new (pts := [0, 1, 9]) rfl, rfl, rfl, rfl, by decide⟩

/-- **C70 fails**: an evaluated line that a lazily evaluated one is assigned to keeps its old entries in front. -/
theorem eager_assign_lazy_fails : ∃ l l' : Lazy Nat Nat Nat, EReach demoGeo l ∧
    Eager.assignLazy demoGeo l (Lazy.new [3, 4]) = .ok l' ∧ l'.pts = [3, 4] ∧
    Eager.query demoGeo l' (.lengthAt 0) = .ok (.len (.val 9)) ∧ plainLengthAt demoGeo (3, 4) = some 1 :=
  ⟨_, _, .new (pts := [0, 9]) rfl, rfl, rfl, rfl, by decide⟩

/-- **C70 fails**: a lazily evaluated line of one point is merged with one of two points; the evaluated line built from it has
no azimuth at its only segment, although the segment has one. -/
theorem eager_of_lazy_fails : ∃ l l' : Lazy Nat Nat Nat, Reach demoGeo l ∧ l.pts = [0, 9] ∧ Eager.ofLazy demoGeo l = .ok l' ∧
    Eager.query demoGeo l' (.azimuthAt 0) = .ok (.angle .uninit) ∧ plainAzimuthAt demoGeo (0, 9) = some 9 :=
  ⟨_, _, .merge (ns := [Lazy.new [0, 9]]) (.new [0]) (by intro n hn; simp at hn; subst hn; exact .new _) rfl, rfl, rfl, rfl,
    by decide⟩

/-- **C70 fails**: a merge that throws at the second of two lines leaves an object with the points of the first and the length
from before. -/
theorem eager_merge_throw_fails : ∃ l b c l' : Lazy Nat Nat Nat, EReach demoGeo l ∧ EReach demoGeo b ∧ EReach demoGeo c ∧
    Eager.merge demoGeo l [b, c] = .ok (l', false) ∧ l'.pts = [0, 9, 12] ∧
    Eager.query demoGeo l' .length = .ok (.len (.val 9)) ∧ plainLength demoGeo [0, 9, 12] = some 12 :=
  ⟨_, _, _, _, .new (pts := [0, 9]) rfl, .new (pts := [9, 12]) rfl, .new (pts := [50, 51]) rfl, rfl, rfl, rfl, by decide⟩

/-! ### Segments -/

/-- **C70, segments.**  A segment built from two points, or taken from a line with such a history, shows the length and azimuth
of its two points, whether the values are asked for at once or later. -/
theorem segment_values (G : Geo P R A) {l : Lazy P R A} (h : EReach G l) :
    (∀ p q : P, (Seg.eager G p q).length = toCell (plainLengthAt G (p, q)) ∧
      (Seg.eager G p q).azimuth = toCell (plainAzimuthAt G (p, q)) ∧
      ((Seg.plain p q).askLength G).1 = toCell (plainLengthAt G (p, q)) ∧
      ((Seg.plain p q).askAzimuth G).1 = toCell (plainAzimuthAt G (p, q))) ∧
    ∀ pos, Eager.segment l pos = match (segs l.pts)[pos]? with
      | some s => .ok ⟨s.1, s.2, toCell (plainLengthAt G s), toCell (plainAzimuthAt G s)⟩
      | none => .throws := by
  constructor
  · intro p q
    have hl : Seg.computeLength G (Seg.plain p q : Seg P R A) = ⟨p, q, segLen G (p, q), .uninit⟩ := rfl
    have ha : Seg.computeAzimuth G (⟨p, q, segLen G (p, q), .uninit⟩ : Seg P R A) = ⟨p, q, segLen G (p, q), segAz G (p, q)⟩ := rfl
    refine ⟨?_, ?_, ?_, ?_⟩
    · unfold Seg.eager Seg.compute; rw [hl, ha]; exact segLen_cell G (p, q)
    · unfold Seg.eager Seg.compute; rw [hl, ha]; exact segAz_cell G (p, q)
    · unfold Seg.askLength; rw [hl]; exact segLen_cell G (p, q)
    · exact segAz_cell G (p, q)
  · intro pos
    unfold Eager.segment
    rcases reach_ecoh G h with rfl | h
    · rfl
    · rw [h.lens, h.azs]
      unfold fullAz
      rw [List.getElem?_map, List.getElem?_map]
      cases (segs l.pts)[pos]? with
      | none => rfl
      | some s => simp [segLen_cell, segAz_cell]

/-- The second segment of a line, and a segment of equal points. -/
example : ∃ l : Lazy Nat Nat Nat, EReach demoGeo l ∧ Eager.segment l 1 = .ok ⟨1, 9, .val 8, .val 109⟩ ∧
    (Seg.eager demoGeo 5 5).length = .invalid :=
  ⟨_, .new (pts := [0, 1, 9]) rfl, rfl, rfl⟩

/-- **C70 fails**: a segment that was asked for its length keeps it when another segment is assigned, lazily evaluated or
not. -/
theorem segment_assign_fails :
    (((((Seg.plain 0 9).askLength demoGeo).2.assignPlain 3 4).askLength demoGeo).1 = .val 9) ∧
    ((Seg.eager demoGeo 0 9).assignPlainEager demoGeo 3 4).length = .val 9 ∧ plainLengthAt demoGeo (3, 4) = some 1 :=
  ⟨rfl, rfl, by decide⟩

end MM.Line
