import Verif.Props.LineAlgebra

/-!
# C27: cached values of lazily evaluated lines
-/

set_option autoImplicit false
set_option linter.unusedSectionVars false

namespace MM.Line

variable {P : Type} [DecidableEq P] {R A : Type}

/-! ### What a plain line with the same points answers -/

def toCell {α : Type} : Option α → Cell α
  | some a => .val a
  | none => .invalid

/-- The answer of a plain line with points `pts` (a value that does not exist is reported as not valid). -/
def expected (G : Geo P R A) (pts : List P) : Query → Outcome (Answer R A)
  | .length => .ok (.len (toCell (plainLength G pts)))
  | .azimuth => .ok (.angle (toCell (plainAzimuth G pts)))
  | .directions => .ok (.angle (toCell (plainDirections G id pts)))
  | .absolute => .ok (.angle (toCell (plainDirections G G.abs pts)))
  | .lengthAt pos =>
    match (segs pts)[pos]? with
    | some s => .ok (.len (toCell (plainLengthAt G s)))
    | none => .throws
  | .azimuthAt pos =>
    match (segs pts)[pos]? with
    | some s => .ok (.angle (toCell (plainAzimuthAt G s)))
    | none => .throws
  | .directionAt pos =>
    match ((segs pts).zip (segs pts).tail)[pos]? with
    | some s => .ok (.angle (toCell (plainDirectionAt G s)))
    | none => .throws

/-! ### Coherence -/

/-- One entry per segment, each unknown or right. -/
def Matches {α : Type} (f : P × P → Cell α) (pts : List P) (cells : List (Cell α)) : Prop :=
  cells.length = (segs pts).length ∧ ∀ (j : Nat) (c : Cell α) (s : P × P), cells[j]? = some c → (segs pts)[j]? = some s → c = .uninit ∨ c = f s

def CellsOk {α : Type} (f : P × P → Cell α) (pts : List P) (cells : List (Cell α)) : Prop :=
  cells = [] ∨ Matches f pts cells

def fullAz (G : Geo P R A) (pts : List P) : List (Cell A) := (segs pts).map (segAz G)

def lengthCell (G : Geo P R A) (pts : List P) : Cell R := sumCells G.zeroR G.addR ((segs pts).map (segLen G))

def directionsCell (G : Geo P R A) (f : A → A) (pts : List P) : Cell A :=
  sumCells G.zeroA (fun acc d => G.addA acc (f d)) (((fullAz G pts).zip (fullAz G pts).tail).map (dirCell G))

structure Coh (G : Geo P R A) (l : Lazy P R A) : Prop where
  lens : CellsOk (segLen G) l.pts l.data.lengths
  azs : CellsOk (segAz G) l.pts l.data.azimuths
  len : l.data.length = .uninit ∨ l.data.length = lengthCell G l.pts
  az : l.data.azimuth = .uninit ∨ l.data.azimuth = azimuthCell G l.pts
  dirs : l.data.directions = .uninit ∨ l.data.directions = directionsCell G id l.pts
  abs : l.data.absolute = .uninit ∨ l.data.absolute = directionsCell G G.abs l.pts

theorem segs_getElem? (l : List P) (j : Nat) (s : P × P) :
    (segs l)[j]? = some s ↔ l[j]? = some s.1 ∧ l[j + 1]? = some s.2 := by
  unfold segs
  rw [List.getElem?_zip_eq_some, List.getElem?_tail]

theorem segs_length (l : List P) : (segs l).length = l.length - 1 := by
  simp [segs, List.length_zip]

/-! ### Values -/

theorem segLen_get? (G : Geo P R A) (s : P × P) : (segLen G s).get? = plainLengthAt G s := by
  unfold segLen plainLengthAt
  split_ifs <;> rfl

theorem lengthCell_eq (G : Geo P R A) (pts : List P) : lengthCell G pts = toCell (plainLength G pts) := by
  unfold lengthCell sumCells plainLength
  have h : ((segs pts).map (segLen G)).filterMap Cell.get? =
      ((segs pts).filter (fun s => decide (s.1 ≠ s.2))).map (fun s => G.len s.1 s.2) := by
    induction segs pts with
    | nil => rfl
    | cons s ss ih =>
      rw [List.map_cons, List.filterMap_cons, segLen_get?, plainLengthAt, List.filter_cons, ih]
      by_cases hs : s.1 = s.2 <;> simp [hs]
  rw [h]
  simp only [List.isEmpty_map, List.foldl_map]
  split_ifs <;> rfl

theorem azimuthCell_eq (G : Geo P R A) (pts : List P) : azimuthCell G pts = toCell (plainAzimuth G pts) := by
  unfold azimuthCell plainAzimuth
  cases pts with
  | nil => rfl
  | cons p pts =>
    cases pts with
    | nil => simp [toCell]
    | cons q pts =>
      have : (p :: q :: pts).getLast? = some ((q :: pts).getLast (by simp)) := by
        rw [List.getLast?_cons_cons]
        exact List.getLast?_eq_getLast_of_ne_nil (by simp)
      rw [this]
      simp only [List.head?_cons, List.length_cons]
      by_cases h : p = (q :: pts).getLast (by simp)
      · rw [if_neg (fun hh => hh.2 h), if_pos h]; rfl
      · rw [if_pos ⟨by omega, h⟩, if_neg h]; rfl

theorem dirCell_seg (G : Geo P R A) (s t : P × P) : (dirCell G (segAz G s, segAz G t)).get? = plainDirectionAt G (s, t) := by
  unfold segAz plainDirectionAt
  by_cases hs : s.1 = s.2 <;> by_cases ht : t.1 = t.2 <;> simp [hs, ht, dirCell, Cell.get?]

theorem directionsCell_eq (G : Geo P R A) (f : A → A) (pts : List P) :
    directionsCell G f pts = toCell (plainDirections G f pts) := by
  unfold directionsCell sumCells plainDirections
  have h : ((((fullAz G pts).zip (fullAz G pts).tail).map (dirCell G)).filterMap Cell.get?) =
      ((segs pts).zip (segs pts).tail).filterMap (plainDirectionAt G) := by
    unfold fullAz
    rw [← List.map_tail, List.zip_map, List.map_map, List.filterMap_map]
    congr 1
    funext p
    exact dirCell_seg G p.1 p.2
  rw [h]
  split_ifs <;> rfl

theorem segAz_cell (G : Geo P R A) (s : P × P) : segAz G s = toCell (plainAzimuthAt G s) := by
  unfold segAz plainAzimuthAt
  split_ifs <;> rfl

theorem segLen_cell (G : Geo P R A) (s : P × P) : segLen G s = toCell (plainLengthAt G s) := by
  unfold segLen plainLengthAt
  split_ifs <;> rfl

theorem segLen_init (G : Geo P R A) (s : P × P) : segLen G s ≠ .uninit := by
  unfold segLen; split_ifs <;> simp

theorem segAz_init (G : Geo P R A) (s : P × P) : segAz G s ≠ .uninit := by
  unfold segAz; split_ifs <;> simp

theorem sumCells_init {α : Type} (z : α) (add : α → α → α) (cs : List (Cell α)) : sumCells z add cs ≠ .uninit := by
  unfold sumCells; split_ifs <;> simp

theorem azimuthCell_init (G : Geo P R A) (pts : List P) : azimuthCell G pts ≠ .uninit := by
  rw [azimuthCell_eq]; cases plainAzimuth G pts <;> simp [toCell]

/-! ### Queries -/

theorem matches_map {α : Type} (f : P × P → Cell α) (pts : List P) : Matches f pts ((segs pts).map f) := by
  refine ⟨by simp, ?_⟩
  intro j c s hc hs
  rw [List.getElem?_map, hs] at hc
  simp at hc
  exact .inr hc.symm

theorem computeCells_ok {α : Type} (f : P × P → Cell α) {pts : List P} {cells : List (Cell α)} (h : CellsOk f pts cells) :
    Matches f pts (computeCells f pts cells) := by
  unfold computeCells
  rcases h with rfl | h
  · exact matches_map f pts
  · split_ifs with he
    · exact matches_map f pts
    · exact h

theorem fill_eq {α : Type} (f : P × P → Cell α) : ∀ (cells : List (Cell α)) (ss : List (P × P)), cells.length = ss.length →
    (∀ (j : Nat) (c : Cell α) (s : P × P), cells[j]? = some c → ss[j]? = some s → c = .uninit ∨ c = f s) → fill f cells ss = .ok (ss.map f) := by
  intro cells
  induction cells with
  | nil => intro ss hl _; cases ss with
    | nil => rfl
    | cons s ss => simp at hl
  | cons c cells ih =>
    intro ss hl hm
    cases ss with
    | nil => simp at hl
    | cons s ss =>
      have hrec := ih ss (by simpa using hl) (fun j c' s' h1 h2 => hm (j + 1) c' s' (by simpa using h1) (by simpa using h2))
      have h0 := hm 0 c s rfl rfl
      cases c with
      | uninit => simp [fill, hrec]
      | invalid => simp [fill, hrec]; simpa using h0
      | val a => simp [fill, hrec]; simpa using h0

theorem computeLength_ok (G : Geo P R A) {l : Lazy P R A} (h : Coh G l) :
    ∃ l', computeLength G l = .ok l' ∧ l'.pts = l.pts ∧ Coh G l' ∧ l'.data.length = lengthCell G l.pts := by
  unfold computeLength
  have hm := computeCells_ok _ h.lens
  cases hc : l.data.length with
  | uninit =>
    simp only
    rw [fill_eq _ _ _ hm.1 hm.2, Outcome.map_ok]
    exact ⟨_, rfl, rfl, ⟨.inr (matches_map _ _), h.azs, .inr rfl, h.az, h.dirs, h.abs⟩, rfl⟩
  | invalid =>
    refine ⟨l, rfl, rfl, h, ?_⟩
    rcases h.len with h1 | h1
    · rw [hc] at h1; cases h1
    · exact h1
  | val a =>
    refine ⟨l, rfl, rfl, h, ?_⟩
    rcases h.len with h1 | h1
    · rw [hc] at h1; cases h1
    · exact h1

theorem computeAzimuth_ok (G : Geo P R A) {l : Lazy P R A} (h : Coh G l) :
    (computeAzimuth G l).pts = l.pts ∧ Coh G (computeAzimuth G l) ∧ (computeAzimuth G l).data.azimuth = azimuthCell G l.pts := by
  unfold computeAzimuth
  cases hc : l.data.azimuth with
  | uninit => exact ⟨rfl, ⟨h.lens, h.azs, h.len, .inr rfl, h.dirs, h.abs⟩, rfl⟩
  | invalid =>
    refine ⟨rfl, h, ?_⟩
    rcases h.az with h1 | h1
    · rw [hc] at h1; cases h1
    · exact h1
  | val a =>
    refine ⟨rfl, h, ?_⟩
    rcases h.az with h1 | h1
    · rw [hc] at h1; cases h1
    · exact h1

theorem zip_tail_short {α : Type} (l : List α) (h : l.length < 2) : l.zip l.tail = [] := by
  match l, h with
  | [], _ => rfl
  | [_], _ => rfl

theorem computeDirections_ok (G : Geo P R A) {l : Lazy P R A} (h : Coh G l) :
    ∃ l', computeDirections G l = .ok l' ∧ l'.pts = l.pts ∧ Coh G l' ∧ l'.data.directions = directionsCell G id l.pts ∧
      l'.data.absolute = directionsCell G G.abs l.pts := by
  unfold computeDirections
  split_ifs with hc
  · refine ⟨l, rfl, rfl, h, ?_, ?_⟩
    · rcases h.dirs with h1 | h1
      · rw [h1] at hc; simp [Cell.isUninit] at hc
      · exact h1
    · rcases h.abs with h1 | h1
      · rw [h1] at hc; simp [Cell.isUninit] at hc
      · exact h1
  · have hm := computeCells_ok _ h.azs
    have hfill : ∃ cells, fillAzimuths G (computeCells (segAz G) l.pts l.data.azimuths) l.pts = .ok cells ∧
        Matches (segAz G) l.pts cells ∧ (cells.zip cells.tail).map (dirCell G) =
          ((fullAz G l.pts).zip (fullAz G l.pts).tail).map (dirCell G) := by
      unfold fillAzimuths
      split_ifs with h2
      · exact ⟨_, fill_eq _ _ _ hm.1 hm.2, matches_map _ _, rfl⟩
      · refine ⟨_, rfl, hm, ?_⟩
        have h3 : (fullAz G l.pts).length < 2 := by
          have := hm.1
          simp only [fullAz, List.length_map]
          omega
        rw [zip_tail_short _ (by omega), zip_tail_short _ h3]
    obtain ⟨cells, h1, h2, h3⟩ := hfill
    rw [h1, Outcome.map_ok]
    refine ⟨_, rfl, rfl, ⟨h.lens, .inr h2, h.len, h.az, .inr ?_, .inr ?_⟩, ?_, ?_⟩ <;> (simp only [h3]; rfl)

theorem initCell_ok {α : Type} (f : P × P → Cell α) (hf : ∀ s, f s ≠ .uninit) {pts : List P} {cells : List (Cell α)}
    (h : Matches f pts cells) (pos : Nat) :
    match (segs pts)[pos]? with
    | some s => ∃ cells', initCell f pts cells pos = .ok (cells', f s) ∧ Matches f pts cells'
    | none => initCell f pts cells pos = .throws := by
  cases hs : (segs pts)[pos]? with
  | none =>
    have : cells[pos]? = none := by
      rw [List.getElem?_eq_none_iff, h.1]
      exact List.getElem?_eq_none_iff.1 hs
    simp [initCell, this]
  | some s =>
    have hlt : pos < cells.length := by
      rw [h.1]
      exact (List.getElem?_eq_some_iff.1 hs).1
    have hc : cells[pos]? = some cells[pos] := List.getElem?_eq_getElem hlt
    simp only
    unfold initCell
    rw [hc]
    rcases h.2 pos _ _ hc hs with h1 | h1
    · simp only [h1, hs]
      refine ⟨_, rfl, by simp [h.1], ?_⟩
      intro j c s' hj hs'
      rw [List.getElem?_set] at hj
      split_ifs at hj with hpj hlt'
      · subst hpj
        rw [hs] at hs'
        injection hs' with hs'
        subst hs'
        injection hj with hj
        exact .inr hj.symm
      · exact h.2 j c s' hj hs'
    · cases hcell : cells[pos] with
      | uninit => rw [hcell] at h1; exact absurd h1.symm (hf s)
      | invalid => simp only; refine ⟨cells, ?_, h⟩; rw [← h1, hcell]
      | val a => simp only; refine ⟨cells, ?_, h⟩; rw [← h1, hcell]

/-- Every query on a coherent line, other than for a direction at a position, gives the answer of a plain line and leaves
the line coherent. -/
theorem query_ok (G : Geo P R A) {l : Lazy P R A} (h : Coh G l) (q : Query) (hq : ∀ pos, q ≠ .directionAt pos) :
    (query G l q).map Prod.fst = expected G l.pts q ∧
      ∀ a l', query G l q = .ok (a, l') → Coh G l' ∧ l'.pts = l.pts := by
  cases q with
  | length =>
    obtain ⟨l', h1, h2, h3, h4⟩ := computeLength_ok G h
    simp only [query, h1, Outcome.map_ok, expected, h4, lengthCell_eq, true_and]
    intro a l'' he
    simp only [Outcome.ok.injEq, Prod.mk.injEq] at he
    rw [← he.2]
    exact ⟨h3, h2⟩
  | azimuth =>
    obtain ⟨h2, h3, h4⟩ := computeAzimuth_ok G h
    simp only [query, Outcome.map_ok, expected, h4, azimuthCell_eq, true_and]
    intro a l'' he
    simp only [Outcome.ok.injEq, Prod.mk.injEq] at he
    rw [← he.2]
    exact ⟨h3, h2⟩
  | directions =>
    obtain ⟨l', h1, h2, h3, h4, h5⟩ := computeDirections_ok G h
    simp only [query, h1, Outcome.map_ok, expected, h4, directionsCell_eq, true_and]
    intro a l'' he
    simp only [Outcome.ok.injEq, Prod.mk.injEq] at he
    rw [← he.2]
    exact ⟨h3, h2⟩
  | absolute =>
    obtain ⟨l', h1, h2, h3, h4, h5⟩ := computeDirections_ok G h
    simp only [query, h1, Outcome.map_ok, expected, h5, directionsCell_eq, true_and]
    intro a l'' he
    simp only [Outcome.ok.injEq, Prod.mk.injEq] at he
    rw [← he.2]
    exact ⟨h3, h2⟩
  | lengthAt pos =>
    have hi := initCell_ok (segLen G) (segLen_init G) (computeCells_ok _ h.lens) pos
    cases hs : (segs l.pts)[pos]? with
    | none =>
      rw [hs] at hi
      simp only at hi
      simp [query, hi, expected, hs]
    | some s =>
      rw [hs] at hi
      simp only at hi
      obtain ⟨cells, h1, h2⟩ := hi
      simp only [query, h1, Outcome.map_ok, expected, hs, segLen_cell, true_and]
      intro a l'' he
      simp only [Outcome.ok.injEq, Prod.mk.injEq] at he
      rw [← he.2]
      exact ⟨⟨.inr h2, h.azs, h.len, h.az, h.dirs, h.abs⟩, rfl⟩
  | azimuthAt pos =>
    have hi := initCell_ok (segAz G) (segAz_init G) (computeCells_ok _ h.azs) pos
    cases hs : (segs l.pts)[pos]? with
    | none =>
      rw [hs] at hi
      simp only at hi
      simp [query, hi, expected, hs]
    | some s =>
      rw [hs] at hi
      simp only at hi
      obtain ⟨cells, h1, h2⟩ := hi
      simp only [query, h1, Outcome.map_ok, expected, hs, segAz_cell, true_and]
      intro a l'' he
      simp only [Outcome.ok.injEq, Prod.mk.injEq] at he
      rw [← he.2]
      exact ⟨⟨h.lens, .inr h2, h.len, h.az, h.dirs, h.abs⟩, rfl⟩
  | directionAt pos => exact absurd rfl (hq pos)

/-! ### Modifications -/

theorem coh_new (G : Geo P R A) (pts : List P) : Coh G (Lazy.new pts) :=
  ⟨.inl rfl, .inl rfl, .inl rfl, .inl rfl, .inl rfl, .inl rfl⟩

theorem coh_assign (G : Geo P R A) (l : Lazy P R A) (pts : List P) : Coh G (l.assignPoints pts) :=
  ⟨.inl rfl, .inl rfl, .inl rfl, .inl rfl, .inl rfl, .inl rfl⟩

theorem slice_ok {α : Type} (f : P × P → Cell α) {pts : List P} {cells : List (Cell α)} (h : CellsOk f pts cells)
    {a b : Nat} (hab : a < b - 1) (hb : b ≤ pts.length) :
    CellsOk f ((pts.drop a).take (b - a)) (slice a (b - 1) cells) := by
  unfold slice
  split_ifs with hc
  · right
    rcases h with rfl | h
    · exact absurd rfl hc.1
    · refine ⟨?_, ?_⟩
      · rw [segs_length]
        simp only [List.length_take, List.length_drop]
        have := h.1
        rw [segs_length] at this
        omega
      · intro j c s hj hs
        rw [List.getElem?_take] at hj
        split_ifs at hj with hlt
        rw [List.getElem?_drop] at hj
        rw [segs_getElem?] at hs
        obtain ⟨hs1, hs2⟩ := hs
        rw [List.getElem?_take, if_pos (by omega), List.getElem?_drop] at hs1
        rw [List.getElem?_take, if_pos (by omega), List.getElem?_drop] at hs2
        exact h.2 (a + j) c s hj ((segs_getElem? _ _ _).2 ⟨hs1, hs2⟩)
  · exact .inl rfl

theorem takeOver_uninit {α β : Type} (c : Cell α) {f : P × P → Cell β} {pts : List P} {cells : List (Cell β)}
    (h : CellsOk f pts cells) {a b : Nat} (hab : a < b - 1) (hne : ¬ (a = 0 ∧ b + 1 = pts.length)) :
    takeOver c a (b - 1) cells = .uninit := by
  unfold takeOver
  rw [if_neg]
  rintro ⟨rfl, h2⟩
  rcases h with rfl | h
  · simp at h2
  · have := h.1
    rw [segs_length] at this
    exact hne ⟨rfl, by omega⟩

theorem coh_sub (G : Geo P R A) {l l' : Lazy P R A} (h : Coh G l) {a b : Nat} (hs : l.sub a b = .ok l')
    (hne : ¬ (a = 0 ∧ b + 1 = l.pts.length)) : Coh G l' := by
  unfold Lazy.sub at hs
  unfold subLine at hs
  split_ifs at hs with hc
  · simp only [Outcome.map_ok, Outcome.ok.injEq] at hs
    subst hs
    unfold subData
    split_ifs with hle
    · exact ⟨.inl rfl, .inl rfl, .inl rfl, .inl rfl, .inl rfl, .inl rfl⟩
    · have hlt : a < b - 1 := by omega
      exact ⟨slice_ok _ h.lens hlt hc.2.2, slice_ok _ h.azs hlt hc.2.2, .inl (takeOver_uninit _ h.lens hlt hne),
        .inl (takeOver_uninit _ h.lens hlt hne), .inl (takeOver_uninit _ h.azs hlt hne),
        .inl (takeOver_uninit _ h.azs hlt hne)⟩
  · cases hs

theorem eraseAt_getElem? (l : List P) (i j : Nat) (h : i < l.length) :
    (eraseAt l i)[j]? = if j < i then l[j]? else l[j + 1]? := by
  rw [eraseAt, if_pos h, List.getElem?_eraseIdx]

theorem eraseCell_ok {α : Type} (f : P × P → Cell α) {pts : List P} {cells : List (Cell α)} (h : CellsOk f pts cells) (i : Nat) :
    CellsOk f (eraseAt pts i) (eraseCell f (eraseAt pts i) cells i) := by
  unfold eraseCell
  rcases h with rfl | h
  · left; simp
  · obtain ⟨hl, hm⟩ := h
    rw [segs_length] at hl
    by_cases hi : i < pts.length
    · have hlen' : (eraseAt pts i).length = pts.length - 1 := by
        rw [eraseAt, if_pos hi, List.length_eraseIdx_of_lt hi]
      by_cases hc : cells = []
      · left; simp [hc]
      · have hcl : cells.length ≠ 0 := fun hh => hc (List.length_eq_zero_iff.1 hh)
        rw [if_pos ⟨hc, by omega⟩]
        right
        have hel : (cells.eraseIdx (if i < cells.length then i else i - 1)).length = cells.length - 1 := by
          apply List.length_eraseIdx_of_lt
          split_ifs <;> omega
        have hcell : ∀ (j : Nat) (c : Cell α), (cells.eraseIdx (if i < cells.length then i else i - 1))[j]? = some c →
            (j + 1 < i ∧ cells[j]? = some c) ∨ (j + 1 = i ∧ i < cells.length) ∨ (i ≤ j ∧ cells[j + 1]? = some c) := by
          intro j c hj
          have hjl : j < cells.length - 1 := by
            rw [← hel]
            exact (List.getElem?_eq_some_iff.1 hj).1
          rw [List.getElem?_eraseIdx] at hj
          by_cases hic : i < cells.length
          · simp only [if_pos hic] at hj
            split_ifs at hj with hji
            · by_cases h1 : j + 1 = i
              · exact .inr (.inl ⟨h1, hic⟩)
              · exact .inl ⟨by omega, hj⟩
            · exact .inr (.inr ⟨by omega, hj⟩)
          · simp only [if_neg hic] at hj
            have hin : i = cells.length := by omega
            rw [if_pos (by omega)] at hj
            exact .inl ⟨by omega, hj⟩
        have hpt : ∀ (j : Nat) (s : P × P), (segs (eraseAt pts i))[j]? = some s →
            (j + 1 < i → (segs pts)[j]? = some s) ∧ (i ≤ j → (segs pts)[j + 1]? = some s) := by
          intro j s hs
          rw [segs_getElem?, eraseAt_getElem? _ _ _ hi, eraseAt_getElem? _ _ _ hi] at hs
          refine ⟨fun hj => ?_, fun hj => ?_⟩
          · rw [if_pos (by omega), if_pos (by omega)] at hs
            exact (segs_getElem? _ _ _).2 hs
          · rw [if_neg (by omega), if_neg (by omega)] at hs
            exact (segs_getElem? _ _ _).2 hs
        generalize hee : cells.eraseIdx (if i < cells.length then i else i - 1) = er at *
        split_ifs with hrep
        · cases hseg : (segs (eraseAt pts i))[i - 1]? with
          | none =>
            exfalso
            rw [List.getElem?_eq_none_iff, segs_length, hlen'] at hseg
            omega
          | some s0 =>
            simp only
            refine ⟨by rw [List.length_set, hel, segs_length, hlen']; omega, ?_⟩
            intro j c s hj hs
            rw [List.getElem?_set] at hj
            split_ifs at hj with h1 h2
            · subst h1
              rw [hseg] at hs
              injection hs with hs
              subst hs
              injection hj with hj
              exact .inr hj.symm
            · rcases hcell j c hj with ⟨h3, h4⟩ | ⟨h3, h4⟩ | ⟨h3, h4⟩
              · exact hm j c s h4 ((hpt j s hs).1 h3)
              · exact absurd (by omega) h1
              · exact hm (j + 1) c s h4 ((hpt j s hs).2 h3)
        · refine ⟨by rw [hel, segs_length, hlen']; omega, ?_⟩
          intro j c s hj hs
          rcases hcell j c hj with ⟨h3, h4⟩ | ⟨h3, h4⟩ | ⟨h3, h4⟩
          · exact hm j c s h4 ((hpt j s hs).1 h3)
          · exfalso
            apply hrep
            refine ⟨?_, by omega, by omega⟩
            intro hh
            rw [hh] at hj
            simp at hj
          · exact hm (j + 1) c s h4 ((hpt j s hs).2 h3)
    · have : eraseAt pts i = pts := by rw [eraseAt, if_neg hi]
      rw [this]
      right
      rw [if_neg]
      · exact ⟨by rw [segs_length]; exact hl, hm⟩
      · rintro ⟨hc, hle⟩
        have hcl : cells.length ≠ 0 := fun hh => hc (List.length_eq_zero_iff.1 hh)
        omega

/-- The cells of a line are right, whatever the totals. -/
def CellsCoh (G : Geo P R A) (l : Lazy P R A) : Prop :=
  CellsOk (segLen G) l.pts l.data.lengths ∧ CellsOk (segAz G) l.pts l.data.azimuths

theorem eraseQuiet_cells (G : Geo P R A) {l : Lazy P R A} (h : CellsCoh G l) (i : Nat) : CellsCoh G (l.eraseQuiet G i) :=
  ⟨eraseCell_ok _ h.1 i, eraseCell_ok _ h.2 i⟩

theorem azimuthCell_congr (G : Geo P R A) {l m : List P} (h1 : l.head? = m.head?) (h2 : l.getLast? = m.getLast?)
    (h3 : 2 ≤ l.length ↔ 2 ≤ m.length) : azimuthCell G l = azimuthCell G m := by
  unfold azimuthCell
  rw [h1, h2]
  simp only [h3]

theorem coh_eraseOne (G : Geo P R A) {l : Lazy P R A} (h : Coh G l) (i : Nat) (hi : i + 1 = l.pts.length → i = 0) :
    Coh G (l.eraseOne G i) := by
  obtain ⟨c1, c2⟩ := eraseQuiet_cells G (l := l) ⟨h.lens, h.azs⟩ i
  refine ⟨c1, c2, .inl rfl, ?_, .inl rfl, .inl rfl⟩
  simp only [Lazy.eraseOne, Data.invalidate]
  split_ifs with hc
  · exact .inl rfl
  · simp only [Bool.or_eq_true, decide_eq_true_eq, not_or] at hc
    rcases h.az with h1 | h1
    · exact .inl h1
    · right
      have : (l.eraseQuiet G i).data.azimuth = l.data.azimuth := rfl
      rw [this, h1]
      have hp : (l.eraseQuiet G i).pts = eraseAt l.pts i := rfl
      rw [hp]
      by_cases hlt : i < l.pts.length
      · have hlen : (eraseAt l.pts i).length = l.pts.length - 1 := by
          rw [eraseAt, if_pos hlt, List.length_eraseIdx_of_lt hlt]
        have hlast : i + 1 ≠ l.pts.length := fun hh => hc.1 (hi hh)
        apply azimuthCell_congr
        · rw [List.head?_eq_getElem?, List.head?_eq_getElem?, eraseAt_getElem? _ _ _ hlt, if_pos (by omega)]
        · rw [List.getLast?_eq_getElem?, List.getLast?_eq_getElem?, hlen, eraseAt_getElem? _ _ _ hlt, if_neg (by omega)]
          congr 1
          omega
        · omega
      · rw [eraseAt, if_neg hlt]

theorem foldl_eraseQuiet_pts (G : Geo P R A) (is : List Nat) : ∀ l : Lazy P R A,
    (is.foldl (Lazy.eraseQuiet G) l).pts = is.foldl eraseAt l.pts ∧
    (is.foldl (Lazy.eraseQuiet G) l).data.azimuth = l.data.azimuth := by
  induction is with
  | nil => intro l; exact ⟨rfl, rfl⟩
  | cons i is ih => intro l; obtain ⟨h1, h2⟩ := ih (l.eraseQuiet G i); exact ⟨h1, h2⟩

theorem foldl_eraseQuiet_cells (G : Geo P R A) (is : List Nat) : ∀ l : Lazy P R A, CellsCoh G l →
    CellsCoh G (is.foldl (Lazy.eraseQuiet G) l) := by
  induction is with
  | nil => intro l h; exact h
  | cons i is ih => intro l h; exact ih _ (eraseQuiet_cells G h i)

theorem keepFrom_append (k : Nat) (a b : List P) (is : List Nat) :
    keepFrom k (a ++ b) is = keepFrom k a is ++ keepFrom (k + a.length) b is := by
  unfold keepFrom
  rw [List.zipIdx_append, List.filter_append, List.map_append]

theorem coh_eraseMany (G : Geo P R A) {l : Lazy P R A} (h : Coh G l) {is : List Nat} (hs : is.Pairwise (· < ·))
    (hr : ∀ i ∈ is, i < l.pts.length) : Coh G (l.eraseMany G is) := by
  unfold Lazy.eraseMany
  split_ifs with hn
  · exact h
  · obtain ⟨c1, c2⟩ := foldl_eraseQuiet_cells G is.reverse l ⟨h.lens, h.azs⟩
    obtain ⟨hp, ha⟩ := foldl_eraseQuiet_pts G is.reverse l
    refine ⟨c1, c2, .inl rfl, ?_, .inl rfl, .inl rfl⟩
    simp only [Data.invalidate]
    split_ifs with hc
    · exact .inl rfl
    · rcases h.az with h1 | h1
      · left; rw [ha]; exact h1
      · right
        rw [ha, h1, hp]
        have hkeep : is.reverse.foldl eraseAt l.pts = keepFrom 0 l.pts is := erase_keeps_others l.pts hs
        rw [hkeep]
        simp only [touchesEnds, Bool.or_eq_true, decide_eq_true_eq, not_or] at hc
        have h0 : 0 ∉ is := by
          intro h0
          cases is with
          | nil => exact hn rfl
          | cons i is =>
            apply hc.1
            rcases List.mem_cons.1 h0 with h0 | h0
            · rw [← h0]; rfl
            · have := (List.pairwise_cons.1 hs).1 0 h0
              omega
        have hlast : l.pts.length - 1 ∉ is := by
          intro hlast
          obtain ⟨j, hj⟩ : ∃ j, is.getLast? = some j := ⟨_, List.getLast?_eq_getLast_of_ne_nil hn⟩
          obtain ⟨pre, hpre⟩ := List.getLast?_eq_some_iff.1 hj
          have hjm : j ∈ is := by rw [hpre]; simp
          have hjl := hr j hjm
          apply hc.2
          rw [hj]
          simp only [Option.map_some, Option.some.injEq]
          rw [hpre] at hlast hs
          rcases List.mem_append.1 hlast with hl' | hl'
          · have := (List.pairwise_append.1 hs).2.2 _ hl' j (by simp)
            omega
          · simp at hl'
            omega
        -- the line has a first and a last point, both kept
        obtain ⟨i, hi⟩ := List.exists_mem_of_ne_nil _ hn
        have hi0 : i ≠ 0 := fun hh => h0 (hh ▸ hi)
        have hil := hr i hi
        have hil2 : i ≠ l.pts.length - 1 := fun hh => hlast (hh ▸ hi)
        obtain ⟨x, rest, hx⟩ : ∃ x rest, l.pts = x :: rest := List.exists_cons_of_ne_nil (fun hh => by simp [hh] at hil)
        have hrest : rest ≠ [] := by
          rintro rfl
          simp [hx] at hil
          omega
        obtain ⟨mid, y, hy⟩ : ∃ mid y, rest = mid ++ [y] := ⟨rest.dropLast, rest.getLast hrest, (List.dropLast_append_getLast hrest).symm⟩
        have hlen : l.pts.length - 1 = 1 + mid.length := by rw [hx, hy]; simp; omega
        rw [hlen] at hlast
        have hk : keepFrom 0 l.pts is = x :: (keepFrom 1 mid is ++ [y]) := by
          rw [hx, hy, keepFrom_cons, if_neg h0, keepFrom_append, keepFrom_cons, if_neg (by simpa using hlast)]
          rfl
        rw [hk, hx, hy]
        apply azimuthCell_congr
        · rfl
        · rw [← List.cons_append, ← List.cons_append, List.getLast?_append, List.getLast?_append]
          rfl
        · simp

/-! ### Merging -/

theorem segs_merge {l n r : List P} (h : mergeSingle l n = .ok r) : segs r = segs l ++ segs n := by
  by_cases hn : n = []
  · subst hn
    simp only [mergeSingle_nil, Outcome.ok.injEq] at h
    subst h
    simp [segs]
  · by_cases hl : l = []
    · subst hl
      rw [mergeSingle_empty] at h
      injection h with h
      subst h
      simp [segs]
    · by_cases hm : Meets l n
      · rw [mergeSingle_meets hl hn hm] at h
        injection h with h
        subst h
        obtain ⟨q, rest, rfl⟩ := List.exists_cons_of_ne_nil hn
        have hm' : l.getLast? = some q := hm
        obtain ⟨pre, rfl⟩ := List.getLast?_eq_some_iff.1 hm'
        have key : ∀ (pre : List P), segs (pre ++ [q] ++ rest) = segs (pre ++ [q]) ++ segs (q :: rest) := by
          intro pre
          induction pre with
          | nil => simp [segs]
          | cons a pre ih =>
            cases pre with
            | nil => simp [segs]
            | cons b pre =>
              have e1 : segs (a :: b :: pre ++ [q] ++ rest) = (a, b) :: segs (b :: pre ++ [q] ++ rest) := by simp [segs]
              have e2 : segs (a :: b :: pre ++ [q]) = (a, b) :: segs (b :: pre ++ [q]) := by simp [segs]
              rw [e1, e2, ih]
              rfl
        exact key pre
      · rw [mergeSingle_apart hl hn hm] at h
        cases h

theorem mergePts_iff {l r : List P} {ns : List (List P)} : mergePts l ns = (r, true) ↔ merge l ns = .ok r := by
  induction ns generalizing l with
  | nil => simp [mergePts, merge]
  | cons n ns ih =>
    rw [mergePts, merge]
    cases mergeSingle l n with
    | ok l' => simpa using ih
    | throws => simp
    | ub => simp

theorem pad_ok {α : Type} {f : P × P → Cell α} {pts : List P} {cells : List (Cell α)} (h : CellsOk f pts cells) :
    Matches f pts (pad pts cells) := by
  unfold pad
  split_ifs with hp
  · subst hp
    rcases h with rfl | h
    · exact ⟨rfl, by simp⟩
    · exact h
  · refine ⟨?_, ?_⟩
    · rw [segs_length, List.length_append, List.length_replicate]
      rcases h with rfl | h
      · simp
      · have := h.1
        rw [segs_length] at this
        omega
    · intro j c s hj hs
      rw [List.getElem?_append] at hj
      split_ifs at hj with hlt
      · rcases h with rfl | h
        · simp at hlt
        · exact h.2 j c s hj hs
      · left
        have := List.mem_of_getElem? hj
        exact (List.mem_replicate.1 this).2

theorem matches_append {α : Type} {f : P × P → Cell α} {l n r : List P} {c1 c2 : List (Cell α)} (h1 : Matches f l c1)
    (h2 : Matches f n c2) (hr : mergeSingle l n = .ok r) : Matches f r (c1 ++ c2) := by
  have hs := segs_merge hr
  refine ⟨by rw [hs]; simp [h1.1, h2.1], ?_⟩
  intro j c s hj hjs
  rw [hs, List.getElem?_append] at hjs
  rw [List.getElem?_append] at hj
  by_cases hlt : j < c1.length
  · rw [if_pos hlt] at hj
    rw [if_pos (by rw [← h1.1]; exact hlt)] at hjs
    exact h1.2 j c s hj hjs
  · rw [if_neg hlt] at hj
    rw [if_neg (by rw [← h1.1]; exact hlt)] at hjs
    rw [h1.1] at hj
    exact h2.2 _ c s hj hjs

theorem foldl_pad_ok {α : Type} {f : P × P → Cell α} (proj : Lazy P R A → List (Cell α)) (ns : List (Lazy P R A)) :
    ∀ (l r : List P) (cells : List (Cell α)), Matches f l cells → (∀ n ∈ ns, CellsOk f n.pts (proj n)) →
      merge l (ns.map Lazy.pts) = .ok r → Matches f r (ns.foldl (fun acc n => acc ++ pad n.pts (proj n)) cells) := by
  induction ns with
  | nil =>
    intro l r cells h _ hm
    simp only [List.map_nil, merge, Outcome.ok.injEq] at hm
    subst hm
    exact h
  | cons n ns ih =>
    intro l r cells h hn hm
    rw [List.map_cons, merge] at hm
    rw [List.foldl_cons]
    cases hs : mergeSingle l n.pts with
    | ok l' =>
      rw [hs, Outcome.bind_ok] at hm
      exact ih l' r _ (matches_append h (pad_ok (hn n List.mem_cons_self)) hs) (fun m hm' => hn m (List.mem_cons_of_mem _ hm')) hm
    | throws => rw [hs] at hm; cases hm
    | ub => rw [hs] at hm; cases hm

theorem coh_merge (G : Geo P R A) {l l' : Lazy P R A} {ns : List (Lazy P R A)} (h : Coh G l) (hn : ∀ n ∈ ns, Coh G n)
    (hm : l.merge ns = (l', true)) : Coh G l' ∧ merge l.pts (ns.map Lazy.pts) = .ok l'.pts := by
  unfold Lazy.merge at hm
  split_ifs at hm with hc
  · simp only [Prod.mk.injEq, and_true] at hm
    subst hm
    have hmp : mergePts l.pts (ns.map Lazy.pts) = ((mergePts l.pts (ns.map Lazy.pts)).1, true) := by
      rw [← hc]
    have hok := mergePts_iff.1 hmp
    refine ⟨⟨.inr ?_, .inr ?_, .inl rfl, .inl rfl, .inl rfl, .inl rfl⟩, hok⟩
    · exact foldl_pad_ok (fun n => n.data.lengths) ns _ _ _ (pad_ok h.lens) (fun n hh => (hn n hh).lens) hok
    · exact foldl_pad_ok (fun n => n.data.azimuths) ns _ _ _ (pad_ok h.azs) (fun n hh => (hn n hh).azs) hok
  · simp at hm

/-! ### Histories -/

/-- Lines that result from a history of operations.  Left out: slices from the first to the last but one point, erasing
only the last point, erasing positions that do not exist or in another order, a merge that throws, assigning plain or
evaluated lines of another container type. -/
inductive Reach (G : Geo P R A) : Lazy P R A → Prop where
  | new (pts : List P) : Reach G (Lazy.new pts)
  | query {l l' : Lazy P R A} {q : Query} {a : Answer R A} : Reach G l → query G l q = .ok (a, l') → Reach G l'
  | sub {l l' : Lazy P R A} {a b : Nat} : Reach G l → l.sub a b = .ok l' → ¬ (a = 0 ∧ b + 1 = l.pts.length) → Reach G l'
  | erase {l : Lazy P R A} {i : Nat} : Reach G l → (i + 1 = l.pts.length → i = 0) → Reach G (l.eraseOne G i)
  | eraseMany {l : Lazy P R A} {is : List Nat} : Reach G l → is.Pairwise (· < ·) → (∀ i ∈ is, i < l.pts.length) →
      Reach G (l.eraseMany G is)
  | merge {l l' : Lazy P R A} {ns : List (Lazy P R A)} : Reach G l → (∀ n ∈ ns, Reach G n) → l.merge ns = (l', true) →
      Reach G l'
  | assign {l : Lazy P R A} {pts : List P} : Reach G l → Reach G (l.assignPoints pts)

theorem reach_coh (G : Geo P R A) {l : Lazy P R A} (h : Reach G l) : Coh G l := by
  induction h with
  | new pts => exact coh_new G pts
  | @query l l' q a _ hq ih =>
    cases q with
    | directionAt pos => simp [Line.query, initDirection] at hq
    | length => exact ((query_ok G ih .length (by simp)).2 a l' hq).1
    | azimuth => exact ((query_ok G ih .azimuth (by simp)).2 a l' hq).1
    | directions => exact ((query_ok G ih .directions (by simp)).2 a l' hq).1
    | absolute => exact ((query_ok G ih .absolute (by simp)).2 a l' hq).1
    | lengthAt pos => exact ((query_ok G ih (.lengthAt pos) (by simp)).2 a l' hq).1
    | azimuthAt pos => exact ((query_ok G ih (.azimuthAt pos) (by simp)).2 a l' hq).1
  | sub _ hs hne ih => exact coh_sub G ih hs hne
  | erase _ hi ih => exact coh_eraseOne G ih _ hi
  | eraseMany _ hs hr ih => exact coh_eraseMany G ih hs hr
  | merge _ _ hm ih ihn => exact (coh_merge G ih ihn hm).1
  | assign _ _ => exact coh_assign G _ _

/-- **C27.**  After any such history every query, other than for a direction at a position, is answered as by a plain line
with the same points.
Missing from the full property: the operations left out in `Reach` (counterexamples below) and the direction at a position,
which always throws (`direction_at_fails`). -/
theorem lazy_agrees_partial (G : Geo P R A) {l : Lazy P R A} (h : Reach G l) (q : Query)
    (hq : ∀ pos, q ≠ .directionAt pos) : (query G l q).map Prod.fst = expected G l.pts q :=
  (query_ok G (reach_coh G h) q hq).1

/-- Points on a line, lengths and azimuths that tell the end points. -/
def demoGeo : Geo Nat Nat Nat where
  len a b := b - a + (a - b)
  az a b := 100 * a + b
  dir a b := a + b
  abs a := a + 1
  zeroR := 0
  addR := (· + ·)
  zeroA := 0
  addA := (· + ·)

/-- A line that has been read, merged with another one, cut and shortened: the history is admitted and the total length is
read from entries of which some were computed before. -/
example : ∃ l : Lazy Nat Nat Nat, Reach demoGeo l ∧ l.pts = [1, 2, 9] ∧ l.data.lengths = [.val 1, .val 7] ∧
    (query demoGeo l .length).map Prod.fst = .ok (.len (.val 8)) := by
  let l0 : Lazy Nat Nat Nat := Lazy.new [0, 1, 2]
  have h0 : Reach demoGeo l0 := .new _
  have h1 : Reach demoGeo ⟨[0, 1, 2], ⟨.val 2, .uninit, .uninit, .uninit, [.val 1, .val 1], []⟩⟩ :=
    .query (q := .length) (a := .len (.val 2)) h0 rfl
  have h2 : Reach demoGeo ⟨[0, 1, 2, 5, 9], ⟨.uninit, .uninit, .uninit, .uninit, [.val 1, .val 1, .uninit, .uninit],
      [.uninit, .uninit, .uninit, .uninit]⟩⟩ :=
    .merge (ns := [Lazy.new [2, 5, 9]]) h1 (by intro n hn; simp at hn; subst hn; exact .new _) rfl
  have h3 : Reach demoGeo ⟨[1, 2, 5, 9], ⟨.uninit, .uninit, .uninit, .uninit, [.val 1, .uninit, .uninit],
      [.uninit, .uninit, .uninit]⟩⟩ := .sub (a := 1) (b := 5) h2 rfl (by decide)
  have h4 := Reach.eraseMany (is := [2]) h3 (by decide) (by decide)
  exact ⟨_, h4, by decide, by decide, by decide⟩

/-- **C27 fails**: cutting off the last point by `sub_rich_line(0, size - 1)` keeps the length and azimuth of the whole
line. -/
theorem sub_stale_fails : ∃ l l' : Lazy Nat Nat Nat, Reach demoGeo l ∧ l.sub 0 2 = .ok l' ∧ l'.pts = [0, 1] ∧
    (query demoGeo l' .length).map Prod.fst = .ok (.len (.val 9)) ∧ plainLength demoGeo [0, 1] = some 1 := by
  have h1 : Reach demoGeo ⟨[0, 1, 9], ⟨.val 9, .uninit, .uninit, .uninit, [.val 1, .val 8], []⟩⟩ :=
    .query (q := .length) (a := .len (.val 9)) (.new [0, 1, 9]) rfl
  exact ⟨_, _, h1, rfl, rfl, by decide, by decide⟩

/-- **C27 fails**: erasing the last point keeps the azimuth. -/
theorem erase_stale_fails : ∃ l : Lazy Nat Nat Nat, Reach demoGeo l ∧ (l.eraseOne demoGeo 2).pts = [0, 1] ∧
    (query demoGeo (l.eraseOne demoGeo 2) .azimuth).map Prod.fst = .ok (.angle (.val 9)) ∧
    plainAzimuth demoGeo [0, 1] = some 1 := by
  have h1 : Reach demoGeo ⟨[0, 1, 9], ⟨.uninit, .val 9, .uninit, .uninit, [], []⟩⟩ :=
    .query (q := .azimuth) (a := .angle (.val 9)) (.new [0, 1, 9]) rfl
  exact ⟨_, h1, by decide, by decide, by decide⟩

/-- **C27 fails**: assigning a plain line keeps all values of the old points. -/
theorem assign_plain_fails : ∃ l : Lazy Nat Nat Nat, Reach demoGeo l ∧ (l.assignPlain [3, 4]).pts = [3, 4] ∧
    (query demoGeo (l.assignPlain [3, 4]) .length).map Prod.fst = .ok (.len (.val 9)) ∧
    plainLength demoGeo [3, 4] = some 1 := by
  have h1 : Reach demoGeo ⟨[0, 1, 9], ⟨.val 9, .uninit, .uninit, .uninit, [.val 1, .val 8], []⟩⟩ :=
    .query (q := .length) (a := .len (.val 9)) (.new [0, 1, 9]) rfl
  exact ⟨_, h1, rfl, by decide, by decide⟩

/-- **C27 fails**: assigning an evaluated line of another container type appends its entries to the old ones, so that the
length of the first segment is that of the old line. -/
theorem assign_eager_fails : ∃ l other : Lazy Nat Nat Nat, Reach demoGeo l ∧ Reach demoGeo other ∧
    (l.assignEager other).pts = [3, 4] ∧
    (query demoGeo (l.assignEager other) (.lengthAt 0)).map Prod.fst = .ok (.len (.val 9)) ∧
    plainLengthAt demoGeo (3, 4) = some 1 := by
  have h1 : Reach demoGeo ⟨[0, 9], ⟨.val 9, .uninit, .uninit, .uninit, [.val 9], []⟩⟩ :=
    .query (q := .length) (a := .len (.val 9)) (.new [0, 9]) rfl
  have h2 : Reach demoGeo ⟨[3, 4], ⟨.val 1, .uninit, .uninit, .uninit, [.val 1], []⟩⟩ :=
    .query (q := .length) (a := .len (.val 1)) (.new [3, 4]) rfl
  exact ⟨_, _, h1, h2, rfl, by decide, by decide⟩

/-- **C27 fails**: a merge that throws has already changed the entries and keeps the old totals; the object answers with
the length of the points before the merge. -/
theorem merge_throw_fails : ∃ l : Lazy Nat Nat Nat, Reach demoGeo l ∧
    (l.merge [Lazy.new [9, 12], Lazy.new [50, 51]]).2 = false ∧
    (l.merge [Lazy.new [9, 12], Lazy.new [50, 51]]).1.pts = [0, 1, 9, 12] ∧
    (query demoGeo (l.merge [Lazy.new [9, 12], Lazy.new [50, 51]]).1 .length).map Prod.fst = .ok (.len (.val 9)) ∧
    plainLength demoGeo [0, 1, 9, 12] = some 12 := by
  have h1 : Reach demoGeo ⟨[0, 1, 9], ⟨.val 9, .uninit, .uninit, .uninit, [.val 1, .val 8], []⟩⟩ :=
    .query (q := .length) (a := .len (.val 9)) (.new [0, 1, 9]) rfl
  exact ⟨_, h1, by decide, by decide, by decide, by decide⟩

/-- **C27 fails**: asking for the direction at a position throws on every line, also where a plain line has a value. -/
theorem direction_at_fails (G : Geo P R A) (l : Lazy P R A) (pos : Nat) : query G l (.directionAt pos) = .throws := rfl

end MM.Line
