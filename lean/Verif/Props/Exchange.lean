import Verif.Model.Exchange
import Verif.Props.TrackCsv
import Verif.Props.CompareRun
import Verif.Props.Rows
import Verif.Props.Session

/-!
# C115: matches written by one run and read by the comparison
-/

set_option autoImplicit false
set_option linter.unusedSectionVars false

namespace MM.Exchange

open MM.Line MM.TrackCsv Relation

variable {P : Type}

/-! ### Statement -/

/-- What is expected of boost: text that was written is read as the same geometry, with coordinates as far as they were written. -/
structure Faithful (x : Text P) (round : P → P) : Prop where
  line : ∀ l, x.parse (x.upper (x.write (.line l))) = .ok (.line (l.map round))
  multi : ∀ ls : List (List P), 2 ≤ ls.length → x.parse (x.upper (x.write (.multi ls))) = .ok (.multi (ls.map (List.map round)))

/-- The settings for reading a file of matches: identifier in `id`, geometry in `match`, and no column of the file is a time. -/
structure Plain (f : Fields) (s : Settings) (header : List String) : Prop where
  ids : f.ids = ["id"]
  geometry : f.geometry = "match"
  times : ∀ n ∈ f.times, n ∉ header
  named : s.noId = false
  hasId : "id" ∈ header
  hasMatch : "match" ∈ header

/-! ### Rows -/

theorem cell_lined {value : String → Option String} {header row : List String} (h : Rows.LinedUp value header row) {n v : String}
    (hn : n ∈ header) (hv : value n = some v) : cell header row n = .ok v := by
  unfold cell
  induction h with
  | nil => cases hn
  | @cons a b as bs hab _ ih =>
    rw [List.zip_cons_cons, List.find?_cons]
    by_cases ha : a = n
    · subst ha
      rw [hv, Option.some.injEq] at hab
      simp [hab]
    · simp only [ha, decide_false]
      exact ih ((List.mem_cons.1 hn).resolve_left fun h => ha h.symm)

theorem cell_absent {header row : List String} {n : String} (hn : n ∉ header) : cell header row n = .throws := by
  unfold cell
  rw [List.find?_eq_none.2]
  intro c hc
  have := List.of_mem_zip (a := c.1) (b := c.2) hc
  simpa using fun h : c.1 = n => hn (h ▸ this.1)

theorem timeText_none (f : Fields) {header : List String} (row : List String) (h : ∀ n ∈ f.times, n ∉ header) : timeText f header row = "" := by
  unfold timeText
  generalize f.times = ns at h
  induction ns with
  | nil => rfl
  | cons n ns ih =>
    rw [List.foldl_cons, cell_absent (h n (by simp))]
    exact ih fun n hn => h n (List.mem_cons_of_mem _ hn)

/-- The lines that are read back. -/
def back (g : P → P) (ls : List (List P)) : List (List P) := if blank ls then [[]] else ls.map (List.map g)

theorem parse_shape {x : Text P} {round : P → P} (hx : Faithful x round) (ls : List (List P)) :
    ∃ g, x.parse (x.upper (x.wkt ls)) = .ok g ∧ (g = .line [] ∧ blank ls = true ∨
      (∃ l, ls = [l] ∧ blank ls = false ∧ g = .line (l.map round)) ∨ (blank ls = false ∧ g = .multi (ls.map (List.map round)))) := by
  unfold Text.wkt shape
  by_cases hb : blank ls = true
  · rw [if_pos hb]
    exact ⟨_, hx.line [], .inl ⟨rfl, hb⟩⟩
  · rw [if_neg hb]
    have hb' : blank ls = false := by simpa using hb
    match ls, hb' with
    | [], hb' => cases hb'
    | [l], hb' => exact ⟨_, hx.line l, .inr (.inl ⟨l, rfl, hb', rfl⟩)⟩
    | a :: b :: ls, hb' => exact ⟨_, hx.multi _ (by simp), .inr (.inr ⟨hb', rfl⟩)⟩

/-- The geometry of a row that was written. -/
def GeomOf (round : P → P) (ls : List (List P)) (g : Geom P) : Prop :=
  g = .line [] ∧ blank ls = true ∨ (∃ l, ls = [l] ∧ blank ls = false ∧ g = .line (l.map round)) ∨
    (blank ls = false ∧ g = .multi (ls.map (List.map round)))

theorem row_read {V : Type} {x : Text P} {round : P → P} (hx : Faithful x round) {f : Fields} {s : Settings} {header : List String} (hf : Plain f s header)
    {num : V → String} {zero : V} {r : Rows.MatchResult V} {row : List String} (h : Rows.LinedUp (Rows.matchValue num zero r) header row)
    {ls : List (List P)} (hm : r.matchWkt = x.wkt ls) :
    ∃ g, rowOf x f header row = .ok ⟨[r.id], none, g⟩ ∧ GeomOf round ls g := by
  obtain ⟨g, h1, h2⟩ := parse_shape hx ls
  refine ⟨g, ?_, h2⟩
  unfold rowOf timeOf
  rw [hf.ids, hf.geometry, timeText_none f row hf.times, if_pos (by decide)]
  simp only [cells]
  rw [cell_lined h hf.hasId rfl, cell_lined h hf.hasMatch rfl, hm]
  simp only [Outcome.bind_ok, Outcome.map_ok, h1]

theorem rows_read {V : Type} {x : Text P} {round : P → P} (hx : Faithful x round) {f : Fields} {s : Settings} {header : List String} (hf : Plain f s header)
    {num : V → String} {zero : V} : ∀ {rs : List (Rows.MatchResult V)} {body : List (List String)} {lss : List (List (List P))},
    List.Forall₂ (fun r row => Rows.LinedUp (Rows.matchValue num zero r) header row) rs body →
    List.Forall₂ (fun r ls => r.matchWkt = x.wkt ls) rs lss →
    ∃ rows, rowsOf x f header body = .ok rows ∧
      List.Forall₂ (fun (y : Rows.MatchResult V × List (List P)) row => row.fields = [y.1.id] ∧ GeomOf round y.2 row.geom) (rs.zip lss) rows := by
  intro rs body lss h
  induction h generalizing lss with
  | nil => intro _; exact ⟨[], rfl, by simp⟩
  | @cons r row rs body h1 _ ih =>
    intro h2
    cases h2 with
    | @cons _ ls _ lss h3 h4 =>
      obtain ⟨rows, k1, k2⟩ := ih h4
      obtain ⟨g, k3, k4⟩ := row_read hx hf h1 h3
      exact ⟨⟨[r.id], none, g⟩ :: rows, by rw [rowsOf, k3, Outcome.bind_ok, k1, Outcome.map_ok], .cons ⟨rfl, k4⟩ k2⟩

/-! ### Tracks -/

theorem read_lines {proj : P → P} {c : Choice P} (hc : c.Lawful) (sel : String → Bool) (grouped : Bool) (is : List (Item P))
    (h : ∀ i ∈ is, (∃ l, i.geom = .line l) ∨ ∃ ls, i.geom = .multi ls) :
    read proj c sel grouped is = (wantedLines proj sel is).map fun y => .lines y.1 y.2 := by
  have hfin : ∀ s : St P, s.pending = [] → finish c sel s = s := by
    intro s hs
    unfold finish
    rw [hs, List.perm_nil.1 (hc.order_perm [])]
    simp only [List.filter_nil, List.map_nil, List.append_nil]
    rw [← hs]
  have key : ∀ (is : List (Item P)) (s : St P), s.pending = [] → (∀ i ∈ is, (∃ l, i.geom = .line l) ∨ ∃ ls, i.geom = .multi ls) →
      (is.foldl (step proj c sel grouped) s).pending = [] ∧
      (is.foldl (step proj c sel grouped) s).out = s.out ++ (wantedLines proj sel is).map fun y => .lines y.1 y.2 := by
    intro is
    induction is with
    | nil => intro s hs _; exact ⟨hs, by simp [wantedLines]⟩
    | cons i is ih =>
      intro s hs hi
      rw [List.foldl_cons]
      have hfl : flush c sel grouped i.id s = s := by
        unfold flush
        split_ifs
        · exact hfin s hs
        · rfl
      unfold step
      rw [hfl]
      have hi' := fun j hj => hi j (List.mem_cons_of_mem i hj)
      rcases hi i (by simp) with ⟨l, hl⟩ | ⟨l, hl⟩
      · obtain ⟨k1, k2⟩ := ih (apply proj sel i s) (by simp [apply, hl, hs]) hi'
        refine ⟨k1, k2.trans ?_⟩
        unfold wantedLines
        by_cases hsel : sel i.lineId = true <;> simp [apply, hl, hsel]
      · obtain ⟨k1, k2⟩ := ih (apply proj sel i s) (by simp [apply, hl, hs]) hi'
        refine ⟨k1, k2.trans ?_⟩
        unfold wantedLines
        by_cases hsel : sel i.lineId = true <;> simp [apply, hl, hsel]
  obtain ⟨k1, k2⟩ := key is ⟨none, [], []⟩ rfl h
  unfold TrackCsv.read
  rw [hfin _ k1, k2, List.nil_append]

theorem items_named {s : Settings} (hs : s.noId = false) (rows : List (Row P)) :
    items s [rows] = rows.map fun r => ⟨joinFields s.aggregator r.fields, joinFields s.aggregator r.fields, r.time, r.geom⟩ := by
  unfold items lineId rowId
  simp only [hs, Bool.false_eq_true, if_false, List.zipIdx_cons, List.zipIdx_nil, List.flatMap_cons, List.flatMap_nil, List.append_nil]
  rw [show (fun r : Row P × Nat => (⟨joinFields s.aggregator r.1.fields, joinFields s.aggregator r.1.fields, r.1.time, r.1.geom⟩ : Item P)) =
    (fun r : Row P => (⟨joinFields s.aggregator r.fields, joinFields s.aggregator r.fields, r.time, r.geom⟩ : Item P)) ∘ Prod.fst from rfl,
    ← List.map_map, List.zipIdx_map_fst]

/-- **C115, reading.**  A file of matches is read as these matches: the selected rows in order, each with its identifier and its
lines, with coordinates as far as they were written; an empty match is an empty line. -/
theorem read_written {V : Type} {x : Text P} {round : P → P} (hx : Faithful x round) {f : Fields} {s : Settings} {header : List String}
    (hf : Plain f s header) {proj : P → P} {c : Choice P} (hc : c.Lawful) (sel : String → Bool) (system : CompareRun.System)
    {num : V → String} {zero : V} {rs : List (Rows.MatchResult V)} {rows : List (List String)} {lss : List (List (List P))}
    (hfile : Rows.GoodFile header (Rows.matchValue num zero) rs rows) (hl : List.Forall₂ (fun r ls => r.matchWkt = x.wkt ls) rs lss) :
    readTracks x f s proj c sel system rows =
      .ok (((rs.zip lss).filter fun y => sel y.1.id).map fun y => ⟨y.1.id, system, back (fun p => proj (round p)) y.2⟩) := by
  obtain ⟨rows', h1, h2⟩ : ∃ rows', fileOf x f rows = .ok rows' ∧
      List.Forall₂ (fun (y : Rows.MatchResult V × List (List P)) row => row.fields = [y.1.id] ∧ GeomOf round y.2 row.geom) (rs.zip lss) rows' := by
    rcases hfile with ⟨rfl, rfl⟩ | ⟨_, body, rfl, h⟩
    · exact ⟨[], rfl, by simp⟩
    · exact rows_read hx hf h hl
  unfold readTracks
  rw [h1, Outcome.map_ok, items_named hf.named, read_lines hc]
  · congr 1
    rw [List.map_map]
    generalize rs.zip lss = ys at h2
    clear hl hfile h1
    induction h2 with
    | nil => rfl
    | @cons y row ys rows h _ ih =>
      obtain ⟨hid, hg⟩ := h
      have hj : joinFields s.aggregator row.fields = y.1.id := by rw [hid]; simp [joinFields]
      have hw : ∃ ls, ls = back (fun p => proj (round p)) y.2 ∧ ∀ is, wantedLines proj sel (⟨joinFields s.aggregator row.fields,
          joinFields s.aggregator row.fields, row.time, row.geom⟩ :: is) =
          (if sel y.1.id then [(y.1.id, ls)] else []) ++ wantedLines proj sel is := by
        refine ⟨_, rfl, fun is => ?_⟩
        rw [hj]
        unfold wantedLines back
        rcases hg with ⟨hg, hb⟩ | ⟨l, hls, hb, hg⟩ | ⟨hb, hg⟩
        · by_cases hsel : sel y.1.id = true <;> simp [hg, hsel, hb]
        · rw [hb, hls]
          by_cases hsel : sel y.1.id = true <;> simp [hg, hsel]
        · by_cases hsel : sel y.1.id = true <;> simp [hg, hsel, hb]
      obtain ⟨ls, rfl, hw⟩ := hw
      rw [List.map_cons, hw, List.map_append, ih, List.filter_cons]
      by_cases hsel : sel y.1.id = true
      · rw [if_pos hsel, if_pos hsel]; rfl
      · rw [if_neg hsel, if_neg hsel]; rfl
  · intro i hi
    obtain ⟨row, hrow, rfl⟩ := List.mem_map.1 hi
    obtain ⟨y, _, hg⟩ : ∃ y, y ∈ rs.zip lss ∧ GeomOf round y.2 row.geom := by
      clear hl hfile h1 hi
      generalize rs.zip lss = ys at h2
      induction h2 with
      | nil => cases hrow
      | @cons y row' ys rows h _ ih =>
        rcases List.mem_cons.1 hrow with rfl | hrow
        · exact ⟨y, by simp, h.2⟩
        · obtain ⟨y', h', h''⟩ := ih hrow
          exact ⟨y', by simp [h'], h''⟩
    rcases hg with ⟨hg, _⟩ | ⟨l, _, _, hg⟩ | ⟨_, hg⟩
    · exact .inl ⟨_, hg⟩
    · exact .inl ⟨_, hg⟩
    · exact .inr ⟨_, hg⟩

theorem segs_map {A B : Type} (g : A → B) (l : List A) : segs (l.map g) = (segs l).map fun e => (g e.1, g e.2) := by
  unfold segs
  rw [← List.map_tail, List.zip_map]
  rfl

theorem back_segs (g : P → P) (ls : List (List P)) : (back g ls).flatMap segs = (ls.map (List.map g)).flatMap segs := by
  unfold back
  split_ifs with h
  · have : ∀ l ∈ ls, l = [] := fun l hl => List.isEmpty_iff.1 (List.all_eq_true.1 h l hl)
    rw [List.flatMap_map]
    symm
    rw [List.flatMap_eq_nil_iff.2]
    · rfl
    · intro l hl
      rw [this l hl]
      rfl
  · rfl

/-! ### Scores -/

variable [LinearOrder P] [Inhabited P]

theorem lines_chosen {x : Text P} {m : Session.Matching P} (htext : m.out.text = x.wkt) {alone : List P → Route.Route P} {Road : P → P → Prop}
    {done : List (Session.Task P)} {rs : List (Rows.MatchResult ℝ)} (hr : List.Forall₂ (Session.Right m alone Road) done rs) :
    ∃ lss : List (List (List P)), List.Forall₂ (fun r ls => r.matchWkt = x.wkt ls) rs lss ∧ (∀ y ∈ rs.zip lss, y.1 ∈ rs) ∧
      ∀ t ∈ done, ∃ r ls, (r, ls) ∈ rs.zip lss ∧ Session.Right m alone Road t r ∧
        ∃ pre post, t.parts = pre ++ post ∧ (r.aborted = false → post = []) ∧
          Session.going ls = (pre.flatMap fun u => Session.going (alone u).lines) ∧ ∀ e ∈ Session.going ls, Road e.1 e.2 := by
  induction hr with
  | nil => exact ⟨[], .nil, by simp, by simp⟩
  | @cons t r done rs h _ ih =>
    obtain ⟨lss, h1, h2, h3⟩ := ih
    obtain ⟨ls, pre, post, k1, _, k3, k4, k5, k6⟩ := h.matched
    refine ⟨ls :: lss, .cons (by rw [k1, htext]) h1, ?_, ?_⟩
    · intro y hy
      exact (List.of_mem_zip (a := y.1) (b := y.2) hy).1
    · intro u hu
      rcases List.mem_cons.1 hu with rfl | hu
      · exact ⟨r, ls, by simp, h, pre, post, k3, k4, k5, k6⟩
      · obtain ⟨r', ls', a, b, c⟩ := h3 u hu
        exact ⟨r', ls', by simp [a], b, c⟩

theorem ids_done {m : Session.Matching P} {alone : List P → Route.Route P} {Road : P → P → Prop}
    {done : List (Session.Task P)} {rs : List (Rows.MatchResult ℝ)} (hr : List.Forall₂ (Session.Right m alone Road) done rs) :
    rs.map Rows.MatchResult.id = done.map Session.Task.id := by
  induction hr with
  | nil => rfl
  | cons h _ ih => rw [List.map_cons, List.map_cons, ih, h.id]

/-- **C115, scores.**  The file that a session (C114) wrote is given to the comparison, with ground truths of the same coordinate
system.  It can be read, and when the comparison ends, under every schedule, each ground truth with the identifier of a selected track
has exactly one result: that of comparing it with the match of that track, which is along roads, with coordinates as far as they were
written.
Missing: as in C109 and C114. -/
theorem scored_partial {x : Text P} {round : P → P} (hx : Faithful x round) {f : Fields} {s : Settings} {columns : String}
    (hf : Plain f s (Rows.columnNames columns)) {proj : P → P} {c : Choice P} (hc : c.Lawful) (sel : String → Bool) (system : CompareRun.System)
    {m : Session.Matching P} (htext : m.out.text = x.wkt) {alone : List P → Route.Route P} {Road : P → P → Prop}
    {ts done : List (Session.Task P)} {rs : List (Rows.MatchResult ℝ)} {rows : List (List String)} {num : ℝ → String}
    (hp : done.Perm ts) (hr : List.Forall₂ (Session.Right m alone Road) done rs)
    (hfile : Rows.GoodFile (Rows.columnNames columns) (Rows.matchValue num 0) rs rows) (hnd : (ts.map Session.Task.id).Nodup)
    {A : Type} (G : Geo P ℝ A) (hG : MultiLine.Exact G.zeroR G.addR) (T : Compare.Tools P ℝ) {truths : List (CompareRun.Track P)}
    (hn : (truths.map CompareRun.Track.id).Nodup) (hsys : ∀ g ∈ truths, g.system = system) :
    ∃ hits, readTracks x f s proj c sel system rows = .ok hits ∧
      ∀ (cc : Coordinator.Config), 1 ≤ cc.threads → ∀ (ignore : Bool) (st : Coordinator.State (CompareRun.Pair P)),
        ReflTransGen (CompareRun.Reading cc) (Coordinator.init cc [CompareRun.queued ignore truths hits]) st → st.pc = .done →
        ∀ g ∈ truths, ∀ t ∈ ts, t.id = g.id → sel t.id = true →
          ∃ r ls cmp d pre post, r ∈ rs ∧ Session.Right m alone Road t r ∧ r.matchWkt = x.wkt ls ∧
            t.parts = pre ++ post ∧ (r.aborted = false → post = []) ∧
            Session.going ls = (pre.flatMap fun u => Session.going (alone u).lines) ∧ (∀ e ∈ Session.going ls, Road e.1 e.2) ∧
            Compare.compare T (g.lines.flatMap segs) ((ls.flatMap segs).map fun e => (proj (round e.1), proj (round e.2)))
              (MultiLine.length G g.lines) (MultiLine.length G (ls.map (List.map fun p => proj (round p)))) = .ok cmp ∧
            (CompareRun.results G T st.executed).filter (fun d => decide (d.truth.id = g.id)) = [d] ∧ d.truth = g ∧ d.comparison = cmp := by
  obtain ⟨lss, h1, h2, h3⟩ := lines_chosen htext hr
  refine ⟨_, read_written hx hf hc sel system hfile h1, ?_⟩
  intro cc hcc ignore st hst hpc g hg t ht hid hsel
  obtain ⟨r, ls, h4, h5, pre, post, h6, h7, h8, h9⟩ := h3 t (hp.symm.subset ht)
  have hzip : (rs.zip lss).map Prod.fst = rs := List.map_fst_zip (by rw [h1.length_eq])
  have hids : ((((rs.zip lss).filter fun y => sel y.1.id).map fun y =>
      (⟨y.1.id, system, back (fun p => proj (round p)) y.2⟩ : CompareRun.Track P)).map CompareRun.Track.id).Nodup := by
    rw [List.map_map]
    have : (CompareRun.Track.id ∘ fun y : Rows.MatchResult ℝ × List (List P) =>
        (⟨y.1.id, system, back (fun p => proj (round p)) y.2⟩ : CompareRun.Track P)) = Rows.MatchResult.id ∘ Prod.fst := rfl
    rw [this]
    refine List.Nodup.sublist (List.Sublist.map _ List.filter_sublist) ?_
    rw [← List.map_map, hzip, ids_done hr]
    exact (hp.map _).nodup_iff.2 hnd
  have hmem : (⟨r.id, system, back (fun p => proj (round p)) ls⟩ : CompareRun.Track P) ∈ ((rs.zip lss).filter fun y => sel y.1.id).map fun y =>
      (⟨y.1.id, system, back (fun p => proj (round p)) y.2⟩ : CompareRun.Track P) :=
    List.mem_map.2 ⟨(r, ls), List.mem_filter.2 ⟨h4, by rw [h5.id]; exact hsel⟩, rfl⟩
  have hf1 := CompareRun.firstOf_self hn hg
  have hf2 := CompareRun.firstOf_self hids hmem
  rw [show (⟨r.id, system, back (fun p => proj (round p)) ls⟩ : CompareRun.Track P).id = g.id from h5.id.trans hid] at hf2
  obtain ⟨cmp, k1, k2⟩ := (CompareRun.rows_partial G T hcc ignore truths _ hst hpc g.id).1 g _ hf1 hf2 (hsys g hg)
  refine ⟨r, ls, cmp, _, pre, post, h2 _ h4, h5, ?_, h6, h7, h8, h9, ?_, k2, rfl, rfl⟩
  · clear hids hmem h3
    obtain ⟨i, hi⟩ := List.mem_iff_getElem?.1 h4
    rw [List.getElem?_zip_eq_some] at hi
    have := List.forall₂_iff_get.1 h1
    obtain ⟨hi1, hi2⟩ := hi
    obtain ⟨a1, a2⟩ := List.getElem?_eq_some_iff.1 hi1
    obtain ⟨b1, b2⟩ := List.getElem?_eq_some_iff.1 hi2
    have := this.2 i a1 b1
    simp only [List.get_eq_getElem, a2, b2] at this
    exact this
  · rw [back_segs] at k1
    rw [← k1]
    congr 1
    · rw [List.flatMap_map, List.map_flatMap]
      refine List.flatMap_congr fun l _ => ?_
      rw [segs_map]
    · rw [MultiLine.length_flat G hG, MultiLine.length_flat G hG, back_segs]

/-! ### Two sessions compared -/

/-- The lines that are read from a text. -/
def linesOf (x : Text P) (proj : P → P) (w : String) : List (List P) :=
  match x.parse (x.upper w) with
  | .ok (.line l) => [l.map proj]
  | .ok (.multi ls) => ls.map (List.map proj)
  | _ => []

theorem linesOf_wkt {x : Text P} {round : P → P} (hx : Faithful x round) (proj : P → P) (ls : List (List P)) :
    linesOf x proj (x.wkt ls) = back (fun p => proj (round p)) ls := by
  obtain ⟨g, h1, h2⟩ := parse_shape hx ls
  unfold linesOf back
  rw [h1]
  rcases h2 with ⟨rfl, hb⟩ | ⟨l, rfl, hb, rfl⟩ | ⟨hb, rfl⟩
  · rw [if_pos hb]; rfl
  · rw [if_neg (by rw [hb]; simp)]; simp
  · rw [if_neg (by rw [hb]; simp)]; simp

/-- What is read depends only on identifiers and texts. -/
theorem read_texts {V : Type} {x : Text P} {round : P → P} (hx : Faithful x round) {f : Fields} {s : Settings} {header : List String}
    (hf : Plain f s header) {proj : P → P} {c : Choice P} (hc : c.Lawful) (sel : String → Bool) (system : CompareRun.System)
    {num : V → String} {zero : V} {rs : List (Rows.MatchResult V)} {rows : List (List String)}
    (hfile : Rows.GoodFile header (Rows.matchValue num zero) rs rows) (hl : ∀ r ∈ rs, ∃ ls, r.matchWkt = x.wkt ls) :
    readTracks x f s proj c sel system rows =
      .ok (((rs.map fun r => (r.id, r.matchWkt)).filter fun y => sel y.1).map fun y => ⟨y.1, system, linesOf x proj y.2⟩) := by
  obtain ⟨lss, h⟩ : ∃ lss, List.Forall₂ (fun (r : Rows.MatchResult V) ls => r.matchWkt = x.wkt ls) rs lss := by
    clear hfile
    induction rs with
    | nil => exact ⟨[], .nil⟩
    | cons r rs ih =>
      obtain ⟨lss, h⟩ := ih fun r hr => hl r (List.mem_cons_of_mem _ hr)
      obtain ⟨ls, h'⟩ := hl r (by simp)
      exact ⟨ls :: lss, .cons h' h⟩
  rw [read_written hx hf hc sel system hfile h]
  congr 1
  clear hl hfile
  induction h with
  | nil => rfl
  | @cons r ls rs lss h _ ih =>
    rw [List.zip_cons_cons, List.map_cons, List.filter_cons, List.filter_cons]
    by_cases hsel : sel r.id = true
    · rw [if_pos hsel, if_pos hsel, List.map_cons, List.map_cons, ih, h, linesOf_wkt hx]
    · rw [if_neg hsel, if_neg hsel, ih]

theorem result_text {m : Session.Matching P} {t : Session.Task P} {r : Rows.MatchResult ℝ} (h : m.execute t = .ok r) :
    r.id = t.id ∧ ∃ ls, r.matchWkt = m.out.text ls := by
  unfold Session.Matching.execute at h
  have hb : ∀ {α β : Type} {y : Outcome α} {g : α → Outcome β} {b : β}, y.bind g = .ok b → ∃ a, y = .ok a ∧ g a = .ok b := by
    intro α β y g b h
    cases y with
    | ok a => exact ⟨a, rfl, h⟩
    | throws => cases h
    | ub => cases h
  obtain ⟨ps, _, h⟩ := hb h
  obtain ⟨r', _, h⟩ := hb h
  cases hl : r'.multiLine with
  | ok ls =>
    rw [hl] at h
    cases h
    exact ⟨rfl, ls, rfl⟩
  | throws => rw [hl] at h; cases h
  | ub => rw [hl] at h; cases h

/-- **C115, the same matches.**  Without a time limit, two sessions matched the same tracks, by whatever threads in whatever time.  The
file of the one is given to the comparison as ground truth, that of the other as matches: each track that could be matched has exactly
one result, which is correct without error.
Missing: as in `same_partial` of C109 (different points within the tolerance of adoption) and C78. -/
theorem sessions_agree_partial {x : Text P} {round : P → P} (hx : Faithful x round) {f : Fields} {s : Settings} {m : Session.Matching P}
    (hf : Plain f s (Rows.columnNames m.out.columns)) {proj : P → P} {c : Choice P} (hc : c.Lawful) (sel : String → Bool)
    (system : CompareRun.System) (htext : m.out.text = x.wkt) (hmax : m.max ≤ 0)
    (hcols : ∀ n ∈ Rows.columnNames m.out.columns, n ∈ Rows.matchNames) {ts ts' : List (Session.Task P)}
    (h : ts.map (fun t => (t.id, t.parts)) = ts'.map fun t => (t.id, t.parts)) (hnd : (ts.map Session.Task.id).Nodup)
    {co ce co' ce' : Coordinator.Config} (ho : 1 ≤ co.threads) (he : 1 ≤ ce.threads) (ho' : 1 ≤ co'.threads) (he' : 1 ≤ ce'.threads)
    {z z' : Lifetime.Sys Nat}
    (hz : ReflTransGen (Lifetime.Quiet co ce (m.failing ts)) (Session.begins co ce ts) z) (hg : z.main = .gone) (hn : z.threw = none)
    (hz' : ReflTransGen (Lifetime.Quiet co' ce' (m.failing ts')) (Session.begins co' ce' ts') z') (hg' : z'.main = .gone) (hn' : z'.threw = none)
    {A : Type} (G : Geo P ℝ A) (T : Compare.Tools P ℝ) (hq : ∀ S p, ∀ q ∈ T.query S p, q ∈ S) :
    ∃ truths hits, readTracks x f s proj c sel system (m.file ts z.exporter.executed).rows = .ok truths ∧
      readTracks x f s proj c sel system (m.file ts' z'.exporter.executed).rows = .ok hits ∧
      ((∀ g ∈ truths, Compare.Apart T (Compare.pts (T.simplify (g.lines.flatMap segs)))) →
        ∀ (cc : Coordinator.Config), 1 ≤ cc.threads → ∀ (ignore : Bool) (st : Coordinator.State (CompareRun.Pair P)),
          ReflTransGen (CompareRun.Reading cc) (Coordinator.init cc [CompareRun.queued ignore truths hits]) st → st.pc = .done →
          ∀ i t, ts[i]? = some t → m.failing ts i = false → sel t.id = true →
            ∃ d : CompareRun.Done P ℝ, (CompareRun.results G T st.executed).filter (fun d => decide (d.truth.id = t.id)) = [d] ∧
              d.comparison.correctFraction = 1 ∧ d.comparison.errorFraction = some 0) := by
  have htxt : ∀ (ts : List (Session.Task P)) (ex : List Nat), ∀ r ∈ ex.filterMap (m.resultOf ts), ∃ ls, r.matchWkt = x.wkt ls := by
    intro ts ex r hr
    obtain ⟨i, _, hi⟩ := List.mem_filterMap.1 hr
    unfold Session.Matching.resultOf at hi
    obtain ⟨t, _, hi⟩ := Option.bind_eq_some_iff.1 hi
    cases he : m.execute t with
    | ok r' =>
      rw [he] at hi
      cases hi
      rw [← htext]
      exact (result_text he).2
    | throws => rw [he] at hi; cases hi
    | ub => rw [he] at hi; cases hi
  have hr1 := read_texts hx hf (proj := proj) hc sel system (Rows.match_partial m.out.num 0 m.out.columns _ hcols) (htxt ts z.exporter.executed)
  have hr2 := read_texts hx hf (proj := proj) hc sel system (Rows.match_partial m.out.num 0 m.out.columns _ hcols) (htxt ts' z'.exporter.executed)
  refine ⟨_, _, hr1, hr2, ?_⟩
  intro hapart cc hcc ignore st hst hpc i t hi hfail hsel
  have hperm := Session.results_perm hmax h ho he ho' he' hz hg hn hz' hg' hn'
  have hperm2 := ((hperm.map fun r => (r.id, r.matchWkt)).filter fun y => sel y.1).map fun y =>
    (⟨y.1, system, linesOf x proj y.2⟩ : CompareRun.Track P)
  rw [List.map_map, List.map_map] at hperm2
  have hcomp : ((fun r : Rows.MatchResult ℝ => (r.id, r.matchWkt)) ∘ Session.timeless) = fun r => (r.id, r.matchWkt) := rfl
  rw [hcomp] at hperm2
  generalize hA : (((z.exporter.executed.filterMap (m.resultOf ts)).map fun r => (r.id, r.matchWkt)).filter fun y => sel y.1).map (fun y =>
    (⟨y.1, system, linesOf x proj y.2⟩ : CompareRun.Track P)) = truths at *
  generalize hB : (((z'.exporter.executed.filterMap (m.resultOf ts')).map fun r => (r.id, r.matchWkt)).filter fun y => sel y.1).map (fun y =>
    (⟨y.1, system, linesOf x proj y.2⟩ : CompareRun.Track P)) = hits at *
  have hex := Lifetime.rows_partial ho he hz hg hn
  have hidn : (truths.map CompareRun.Track.id).Nodup := by
    rw [← hA, List.map_map]
    have e1 : (CompareRun.Track.id ∘ fun y : String × String => (⟨y.1, system, linesOf x proj y.2⟩ : CompareRun.Track P)) = Prod.fst := rfl
    rw [e1]
    refine List.Nodup.sublist (List.Sublist.map _ List.filter_sublist) ?_
    rw [List.map_map]
    have e2 : (Prod.fst ∘ fun r : Rows.MatchResult ℝ => (r.id, r.matchWkt)) = Rows.MatchResult.id := rfl
    rw [e2, List.map_filterMap]
    have e3 : ∀ i, (m.resultOf ts i).map Rows.MatchResult.id = if m.failing ts i then none else (ts[i]?).map Session.Task.id := by
      intro i
      unfold Session.Matching.failing
      cases hr : m.resultOf ts i with
      | none => rfl
      | some r =>
        unfold Session.Matching.resultOf at hr
        obtain ⟨t, h1, h2⟩ := Option.bind_eq_some_iff.1 hr
        rw [h1]
        cases he : m.execute t with
        | ok r' =>
          rw [he] at h2
          cases h2
          simp [(result_text he).1]
        | throws => rw [he] at h2; cases h2
        | ub => rw [he] at h2; cases h2
    simp only [e3]
    refine (hex.filterMap _).nodup_iff.2 ?_
    have hsub : ((List.range ts.length).filter fun i => !m.failing ts i).filterMap
        (fun i => if m.failing ts i then none else (ts[i]?).map Session.Task.id) =
        ((List.range ts.length).filter fun i => !m.failing ts i).filterMap (fun i => (ts[i]?).map Session.Task.id) := by
      refine List.filterMap_congr fun i hi => ?_
      have := (List.mem_filter.1 hi).2
      simp only [Bool.not_eq_true'] at this
      rw [this]
      rfl
    rw [hsub]
    refine List.Nodup.sublist (List.Sublist.filterMap _ List.filter_sublist) ?_
    have : (List.range ts.length).filterMap (fun i => (ts[i]?).map Session.Task.id) = ts.map Session.Task.id := by
      rw [← List.map_filterMap, Session.getElems]
    rw [this]
    exact hnd
  have hidn' : (hits.map CompareRun.Track.id).Nodup := (hperm2.map _).nodup_iff.1 hidn
  obtain ⟨r, hr, hrid⟩ : ∃ r, m.resultOf ts i = some r ∧ r.id = t.id := by
    unfold Session.Matching.failing at hfail
    cases hr : m.resultOf ts i with
    | none => rw [hr] at hfail; cases hfail
    | some r =>
      refine ⟨r, rfl, ?_⟩
      unfold Session.Matching.resultOf at hr
      rw [hi, Option.bind_some] at hr
      cases he : m.execute t with
      | ok r' => rw [he] at hr; cases hr; exact (result_text he).1
      | throws => rw [he] at hr; cases hr
      | ub => rw [he] at hr; cases hr
  have hmem : (⟨r.id, system, linesOf x proj r.matchWkt⟩ : CompareRun.Track P) ∈ truths := by
    rw [← hA]
    refine List.mem_map.2 ⟨(r.id, r.matchWkt), List.mem_filter.2 ⟨List.mem_map.2 ⟨r, List.mem_filterMap.2 ⟨i, ?_, hr⟩, rfl⟩, by rw [hrid]; exact hsel⟩, rfl⟩
    refine hex.symm.subset (List.mem_filter.2 ⟨List.mem_range.2 (List.getElem?_eq_some_iff.1 hi).1, by rw [hfail]; rfl⟩)
  have hf1 := CompareRun.firstOf_self hidn hmem
  have hf2 := CompareRun.firstOf_self hidn' (hperm2.subset hmem)
  obtain ⟨cmp, k1, k2⟩ := (CompareRun.rows_partial G T hcc ignore truths hits hst hpc r.id).1 _ _ hf1 hf2 rfl
  obtain ⟨cmp', k3, k4, k5, _⟩ := Compare.compare_same_partial T hq _ _ _ (hapart _ hmem)
  rw [k1, Outcome.ok.injEq] at k3
  subst k3
  rw [← hrid]
  exact ⟨_, k2, k4, k5⟩

/-! ### Examples -/

/-- A text of as many letters as the number of the geometry in an enumeration. -/
def toy (round : Int → Int) : Text Int where
  write g := match g with
    | .line l => String.ofList (List.replicate (Encodable.encode (true, [l.map round])) 'L')
    | .multi ls => String.ofList (List.replicate (Encodable.encode (false, ls.map (List.map round))) 'L')
    | _ => ""
  upper w := w
  parse w := match (Encodable.decode w.length : Option (Bool × List (List Int))) with
    | some (true, [l]) => .ok (.line l)
    | some (false, ls) => .ok (.multi ls)
    | _ => .throws

theorem toy_faithful (round : Int → Int) : Faithful (toy round) round := by
  refine ⟨fun l => ?_, fun ls _ => ?_⟩
  · simp [toy]
  · simp [toy]

/-- `id` and `match` of a file with the default columns. -/
def readIdMatch : Fields := ⟨["id"], ["time"], ",", "match", fun _ => .throws⟩

/-- The defaults. -/
def readDefaults : Settings := ⟨false, false, true, ","⟩

theorem plain_default : Plain readIdMatch readDefaults (Rows.columnNames "id,match,duration") :=
  ⟨rfl, rfl, by decide, rfl, by decide, by decide⟩

/-- Points of the street. -/
noncomputable def streetTools : Compare.Tools Int ℝ where
  dist p q := ((p - q).natAbs : ℝ)
  tolerance := 1 / 2
  query S _ := S
  splits s p := decide (min s.1 s.2 < p) && decide (p < max s.1 s.2)
  len s := if s.1 = s.2 then none else some ((s.1 - s.2).natAbs : ℝ)
  simplify l := l

theorem street_exact : MultiLine.Exact Pipe.streetGeo.zeroR Pipe.streetGeo.addR := ⟨fun a b c => add_assoc a b c, zero_add, add_zero⟩

theorem street_distinct (S : List Int) : Compare.Apart streetTools S := by
  intro p _ q _ hne
  have h : (1 : ℝ) ≤ ((p - q).natAbs : ℝ) := by exact_mod_cast (by omega : 1 ≤ (p - q).natAbs)
  simp only [streetTools]
  linarith

theorem queued_one {ls ls' : List (List Int)} : CompareRun.queued false [(⟨"ride", .cartesian, ls⟩ : CompareRun.Track Int)] [⟨"ride", .cartesian, ls'⟩] =
    [⟨⟨"ride", .cartesian, ls'⟩, ⟨"ride", .cartesian, ls⟩⟩] := by
  rfl

/-- `read_written`: a row with one line and a row with two, of which the second is not selected; coordinates are written in tens. -/
example : readTracks (toy fun p => p / 10 * 10) readIdMatch readDefaults id ⟨insSort, id⟩ (fun i => decide (i ≠ "b")) .cartesian
      [["id", "match"], ["a", (toy fun p => p / 10 * 10).wkt [[0, 13]]], ["b", (toy fun p => p / 10 * 10).wkt [[1], [2]]],
        ["c", (toy fun p => p / 10 * 10).wkt [[0, 27], [31, 40]]]] =
    .ok [⟨"a", .cartesian, [[0, 10]]⟩, ⟨"c", .cartesian, [[0, 20], [30, 40]]⟩] := by
  have key : ∀ w1 w2 w3 : String, (∃ ls, w1 = (toy fun p => p / 10 * 10).wkt ls) → (∃ ls, w2 = (toy fun p => p / 10 * 10).wkt ls) →
      (∃ ls, w3 = (toy fun p => p / 10 * 10).wkt ls) →
      readTracks (toy fun p => p / 10 * 10) readIdMatch readDefaults id ⟨insSort, id⟩ (fun i => decide (i ≠ "b")) .cartesian
        [["id", "match"], ["a", w1], ["b", w2], ["c", w3]] =
      .ok [⟨"a", .cartesian, linesOf (toy fun p => p / 10 * 10) id w1⟩, ⟨"c", .cartesian, linesOf (toy fun p => p / 10 * 10) id w3⟩] := by
    intro w1 w2 w3 h1 h2 h3
    refine (read_texts (V := Nat) (toy_faithful _) (f := readIdMatch) (s := readDefaults) (header := ["id", "match"])
      ⟨rfl, rfl, by decide, rfl, by decide, by decide⟩ insSort_lawful _ .cartesian (num := fun _ => "") (zero := 0)
      (rs := [⟨"a", "", "", w1, none, none, none, [], false, 0⟩, ⟨"b", "", "", w2, none, none, none, [], false, 0⟩,
        ⟨"c", "", "", w3, none, none, none, [], false, 0⟩])
      (.inr ⟨by simp, [["a", w1], ["b", w2], ["c", w3]], rfl,
        .cons (.cons rfl (.cons rfl .nil)) (.cons (.cons rfl (.cons rfl .nil)) (.cons (.cons rfl (.cons rfl .nil)) .nil))⟩) ?_).trans rfl
    intro r hr
    simp only [List.mem_cons, List.not_mem_nil, or_false] at hr
    rcases hr with rfl | rfl | rfl
    · exact h1
    · exact h2
    · exact h3
  rw [key _ _ _ ⟨_, rfl⟩ ⟨_, rfl⟩ ⟨_, rfl⟩, linesOf_wkt (toy_faithful _), linesOf_wkt (toy_faithful _)]
  rfl

/-- `scored_partial`: the ride of C114, with coordinates in tens, against a ground truth. -/
example : ∃ (N : Session.Matching Int) (hits : List (CompareRun.Track Int)) (r : Rows.MatchResult ℝ) (ls : List (List Int)) (d : CompareRun.Done Int ℝ),
    readTracks (toy fun p => p / 10 * 10) readIdMatch readDefaults id ⟨insSort, id⟩ (fun _ => true) .cartesian
      (N.file [Session.ride] [0]).rows = .ok hits ∧ r.matchWkt = (toy fun p => p / 10 * 10).wkt ls ∧
      (CompareRun.results Pipe.streetGeo streetTools (CompareRun.queued false [⟨"ride", .cartesian, [[0, 20]]⟩] hits)).filter
        (fun d => decide (d.truth.id = "ride")) = [d] := by
  obtain ⟨_, _, _, alone, _, _, n, N, _, _, ht, _, _, done, rs, h6, h7, h8⟩ :=
    Session.town_session (toy fun p => p / 10 * 10).wkt 5 (columns := "id,match,duration") (by decide)
  obtain ⟨hits, k1, k2⟩ := scored_partial (toy_faithful _) plain_default (proj := id) (c := ⟨insSort, id⟩) insSort_lawful (fun _ => true) .cartesian ht h6 h7 h8
    (by simp) Pipe.streetGeo street_exact streetTools (truths := [⟨"ride", .cartesian, [[0, 20]]⟩]) (by simp) (by simp)
  have hlen : ∃ L, hits = [⟨"ride", .cartesian, L⟩] := by
    obtain ⟨lss, g1, _, _⟩ := lines_chosen ht h7
    have := read_written (toy_faithful _) plain_default (proj := id) (c := ⟨insSort, id⟩) insSort_lawful (fun _ => true) .cartesian h8 g1
    rw [this, Outcome.ok.injEq] at k1
    obtain rfl := List.perm_singleton.1 h6
    cases h7 with
    | cons a b =>
      cases b
      cases g1 with
      | cons c d =>
        cases d
        have := a.id
        simp only [List.zip_cons_cons, List.zip_nil_left, List.filter_cons, List.filter_nil, if_true, List.map_cons, List.map_nil] at k1
        rw [this] at k1
        exact ⟨_, k1.symm⟩
  obtain ⟨L, rfl⟩ := hlen
  obtain ⟨r, ls, cmp, d, pre, post, q1, q2, q3, _, _, _, _, _, q4, _⟩ := k2 (Coordinator.Config.ofThreads 1) le_rfl false _
    (CompareRun.one_run _) rfl _ (List.mem_singleton.2 rfl) Session.ride (by simp) rfl rfl
  exact ⟨N, _, r, ls, d, k1, q3, q4⟩

/-- `sessions_agree_partial`: the ride, and the ride on a slower machine. -/
example : ∃ (N : Session.Matching Int) (truths hits : List (CompareRun.Track Int)),
    readTracks (toy id) readIdMatch readDefaults id ⟨insSort, id⟩ (fun _ => true) .cartesian (N.file [Session.ride] [0]).rows = .ok truths ∧
    readTracks (toy id) readIdMatch readDefaults id ⟨insSort, id⟩ (fun _ => true) .cartesian (N.file [Session.slower] [0]).rows = .ok hits ∧
    ∀ (cc : Coordinator.Config), 1 ≤ cc.threads → ∀ (ignore : Bool) (st : Coordinator.State (CompareRun.Pair Int)),
      ReflTransGen (CompareRun.Reading cc) (Coordinator.init cc [CompareRun.queued ignore truths hits]) st → st.pc = .done →
      ∃ d : CompareRun.Done Int ℝ, (CompareRun.results Pipe.streetGeo streetTools st.executed).filter (fun d => decide (d.truth.id = "ride")) = [d] ∧
        d.comparison.correctFraction = 1 ∧ d.comparison.errorFraction = some 0 := by
  obtain ⟨_, _, _, alone, _, _, n, N, _, h0, ht, h1, hf, _⟩ := Session.town_session (toy id).wkt 0 (columns := "id,match,duration") (by decide)
  have hf' : N.failing [Session.slower] 0 = false := by
    have := congrArg Option.isNone (Session.results_same (m := N) h0.le (ts := [Session.ride]) (ts' := [Session.slower]) rfl 0)
    rw [Option.isNone_map, Option.isNone_map] at this
    exact this.symm.trans hf
  obtain ⟨truths, hits, k1, k2, k3⟩ := sessions_agree_partial (toy_faithful id) (m := N) (by rw [h1]; exact plain_default) (proj := id)
    (c := ⟨insSort, id⟩) insSort_lawful (fun _ => true) .cartesian ht h0.le (by rw [h1]; decide) (ts := [Session.ride]) (ts' := [Session.slower]) rfl
    (by simp) (le_refl 1) (le_refl 1) (le_refl 1) (le_refl 1) (Session.one_track hf) rfl rfl (Session.one_track hf') rfl rfl
    Pipe.streetGeo streetTools (fun _ _ _ h => h)
  exact ⟨N, truths, hits, k1, k2, fun cc hcc ignore st h5 h6 =>
    k3 (fun _ _ => street_distinct _) cc hcc ignore st h5 h6 0 Session.ride rfl hf rfl⟩

end MM.Exchange
