import Verif.Model.NetDisk

/-!
# C81: the files of a network
-/

set_option autoImplicit false
set_option linter.unusedSectionVars false

namespace MM.NetDisk

open MM

variable {T X Y G : Type}

/-! ## One file at a time -/

/-- The operations on one file. -/
def on (n : Nat) (ops : List (Op T X Y G)) : List (Op T X Y G) := ops.filter (fun o => decide (o.file = n))

/-- What operations make of one file. -/
def effects (me : Info) (ops : List (Op T X Y G)) (f : Option (File T X Y G)) : Option (File T X Y G) :=
  ops.foldl (fun f o => o.effect me f) f

theorem run_file (me : Info) (ops : List (Op T X Y G)) : ∀ (d : Disk T X Y G) (n : Nat),
    run me d ops n = effects me (on n ops) (d n) := by
  induction ops with
  | nil => intro d n; rfl
  | cons o ops ih =>
    intro d n
    show run me (step me d o) ops n = _
    rw [ih]
    by_cases h : o.file = n
    · simp [on, effects, step, h]
    · simp [on, effects, step, h, Ne.symm h]

theorem on_append (n : Nat) (a b : List (Op T X Y G)) : on n (a ++ b) = on n a ++ on n b := by simp [on]

theorem on_only (n : Nat) (b : Bool) (l : List (Op T X Y G)) : on n (only b l) = only b (on n l) := by
  cases b <;> simp [only, on]

theorem on_all {n : Nat} {l : List (Op T X Y G)} (h : ∀ o ∈ l, o.file = n) : on n l = l := by
  simp only [on, List.filter_eq_self]
  intro o ho
  simp [h o ho]

theorem on_none {n : Nat} {l : List (Op T X Y G)} (h : ∀ o ∈ l, o.file ≠ n) : on n l = [] := by
  simp only [on, List.filter_eq_nil_iff]
  intro o ho
  simp [h o ho]

theorem on_const {a : Nat} (n : Nat) {l : List (Op T X Y G)} (h : ∀ o ∈ l, o.file = a) : on n l = if a = n then l else [] := by
  by_cases e : a = n
  · rw [if_pos e]; exact on_all (fun o ho => (h o ho).trans e)
  · rw [if_neg e]; exact on_none (fun o ho => by rw [h o ho]; exact e)

theorem only_nil (b : Bool) : only b ([] : List (Op T X Y G)) = [] := by cases b <;> rfl

theorem effects_append (me : Info) (a b : List (Op T X Y G)) (f : Option (File T X Y G)) :
    effects me (a ++ b) f = effects me b (effects me a f) := by simp [effects]

variable (file : Part → Nat) (m : Options.PrepareMapped) (w : Work T X Y G)

theorem fresh_file (n : Nat) : ∀ o ∈ (fresh n : List (Op T X Y G)), o.file = n := by
  simp [fresh, Op.file]

theorem graphStorage_file : ∀ o ∈ graphStorage file w, o.file = file .graph := by
  intro o ho
  simp only [graphStorage, List.mem_append] at ho
  rcases ho with ho | ho
  · exact fresh_file _ o ho
  · simp at ho; rcases ho with rfl | rfl <;> rfl

theorem fill_file (gs : List G) : ∀ o ∈ fill file w gs, o.file = file .graph := by
  intro o ho
  simp only [fill, List.mem_map] at ho
  obtain ⟨g, -, rfl⟩ := ho
  rfl

/-- The operations on the graph while it is converted. -/
def graphOps : List (Op T X Y G) :=
  (w.failed.map (fun gs => fill file w gs ++ graphStorage file w)).flatten ++ fill file w (w.onTheWay ++ [w.graph])

theorem graphOps_file : ∀ o ∈ graphOps file w, o.file = file .graph := by
  intro o ho
  simp only [graphOps, List.mem_append, List.mem_flatten, List.mem_map] at ho
  rcases ho with ⟨l, ⟨gs, -, rfl⟩, ho⟩ | ho
  · rcases List.mem_append.1 ho with ho | ho
    · exact fill_file file w gs o ho
    · exact graphStorage_file file w o ho
  · exact fill_file file w _ o ho

/-- The operations on the tags while they are cloned. -/
def tagOps : List (Op T X Y G) := (w.tagsOnTheWay ++ [w.tags]).map (fun t => .assign (file .tags) .tags (.tags t))

theorem tagOps_file : ∀ o ∈ tagOps file w, o.file = file .tags := by
  intro o ho
  simp only [tagOps, List.mem_map] at ho
  obtain ⟨g, -, rfl⟩ := ho
  rfl

/-- The operations on the index. -/
def indexOps : List (Op T X Y G) :=
  (w.indexFailed.map (fun b => only b (indexPoints file w) ++ fresh (file .index))).flatten ++
    indexPoints file w ++ indexSegments file w

theorem indexOps_file : ∀ o ∈ indexOps file w, o.file = file .index := by
  intro o ho
  simp only [indexOps, List.mem_append, List.mem_flatten, List.mem_map, indexPoints, indexSegments] at ho
  rcases ho with (⟨l, ⟨b, -, rfl⟩, ho⟩ | ho) | ho
  · rcases List.mem_append.1 ho with ho | ho
    · cases b <;> simp [only] at ho
      rw [ho]; rfl
    · exact fresh_file _ o ho
  · simp at ho; rw [ho]; rfl
  · simp at ho; rw [ho]; rfl

variable {file}

/-- No operation is about another file. -/
theorem on_other (ok : Nat → Bool) (n : Nat) (hn : ∀ p, file p ≠ n) : on n (prepare file m w ok) = [] := by
  have f1 := fun (n k : Nat) => on_const k (fresh_file (T := T) (X := X) (Y := Y) (G := G) n)
  have f2 := fun (k : Nat) => on_const k (graphStorage_file file w)
  have f3 := fun (k : Nat) => on_const k (graphOps_file file w)
  have f4 := fun (k : Nat) => on_const k (tagOps_file file w)
  have f5 := fun (k : Nat) => on_const k (indexOps_file file w)
  have f6 : ∀ (n k : Nat), on k ([.remove n] : List (Op T X Y G)) = if n = k then [.remove n] else [] :=
    fun n k => on_const k (by simp [Op.file])
  have f7 : ∀ (n k : Nat) (ky : Key) (v : Val T X Y G), on k ([.construct n ky v] : List (Op T X Y G)) =
      if n = k then [.construct n ky v] else [] :=
    fun n k ky v => on_const k (by simp [Op.file])
  have f8 : ∀ (b : Bool) (n k : Nat) (vs : List (Val T X Y G)), on k (serializeTo b n vs) = if n = k then serializeTo b n vs else [] :=
    fun b n k vs => on_const k (by cases b <;> simp [serializeTo, only, Op.file])
  have e1 : compress file m w = only m.final.tags (tagOps file w) ++ only m.final.graph (graphOps file w) := rfl
  have e2 : buildIndices file m w = only m.final.indices (indexOps file w) := rfl
  simp only [prepare, importBegin, osmImport, networkBegin, e1, importEnd, e2, serialize, networkEnd, on_append, on_only, f1, f2, f3, f4,
    f5, f6, f7, f8, hn, if_false, only_nil, List.append_nil]

/-- The operations on each file, in order. -/
theorem on_prepare (hinj : Function.Injective file) (ok : Nat → Bool) (p : Part) :
    on (file p) (prepare file m w ok) =
      match p with
      | .tags =>
        only m.final.tags (fresh (file .tags) ++ [.construct (file .tags) .tags (.tags w.noTags)]) ++
          only m.final.tags (tagOps file w) ++ only (!m.final.tags) (serializeTo (ok (file .tags)) (file .tags) [.tags w.tags])
      | .index =>
        only m.final.indices (fresh (file .index)) ++ only m.final.indices (indexOps file w) ++
          only (!m.final.indices) (serializeTo (ok (file .index)) (file .index) [.points w.points, .segments w.segments])
      | .graph =>
        only m.final.graph (graphStorage file w) ++ only m.final.graph (graphOps file w) ++
          only (!m.final.graph) (serializeTo (ok (file .graph)) (file .graph) [.graph w.graph])
      | .osmTags => only w.osm (only m.osmTags (fresh (file .osmTags)) ++ only m.osmTags [.remove (file .osmTags)])
      | .osmVertices =>
        only w.osm (only m.osmVertices (fresh (file .osmVertices)) ++ only m.osmVertices [.remove (file .osmVertices)])
      | .importTags => only m.tagsImport (fresh (file .importTags)) ++ only m.tagsImport [.remove (file .importTags)]
      | .importGraph => only m.graphImport (fresh (file .importGraph)) ++ only m.graphImport [.remove (file .importGraph)]
      | .indexBuild => only m.indexBuild (fresh (file .indexBuild)) ++ only m.indexBuild [.remove (file .indexBuild)] := by
  have f1 := fun (n k : Nat) => on_const k (fresh_file (T := T) (X := X) (Y := Y) (G := G) n)
  have f2 := fun (k : Nat) => on_const k (graphStorage_file file w)
  have f3 := fun (k : Nat) => on_const k (graphOps_file file w)
  have f4 := fun (k : Nat) => on_const k (tagOps_file file w)
  have f5 := fun (k : Nat) => on_const k (indexOps_file file w)
  have f6 : ∀ (n k : Nat), on k ([.remove n] : List (Op T X Y G)) = if n = k then [.remove n] else [] :=
    fun n k => on_const k (by simp [Op.file])
  have f7 : ∀ (n k : Nat) (ky : Key) (v : Val T X Y G), on k ([.construct n ky v] : List (Op T X Y G)) =
      if n = k then [.construct n ky v] else [] :=
    fun n k ky v => on_const k (by simp [Op.file])
  have f8 : ∀ (b : Bool) (n k : Nat) (vs : List (Val T X Y G)), on k (serializeTo b n vs) = if n = k then serializeTo b n vs else [] :=
    fun b n k vs => on_const k (by cases b <;> simp [serializeTo, only, Op.file])
  have e1 : compress file m w = only m.final.tags (tagOps file w) ++ only m.final.graph (graphOps file w) := rfl
  have e2 : buildIndices file m w = only m.final.indices (indexOps file w) := rfl
  simp only [prepare, importBegin, osmImport, networkBegin, e1, importEnd, e2, serialize, networkEnd, on_append, on_only, f1, f2, f3, f4,
    f5, f6, f7, f8, hinj.eq_iff]
  cases p <;> simp [only_nil]

/-! ## What becomes of each file -/

theorem effects_fresh (me : Info) (n : Nat) (f : Option (File T X Y G)) :
    effects me (fresh n) f = some (.storage (some me) []) := rfl

/-- The storage of a graph. -/
def graphFile (me : Info) (cs : Cs) (g : G) : File T X Y G :=
  .storage (some me) [(.graph cs, .graph g), (.vertexMap cs, .nothing)]

theorem effects_graphStorage (me : Info) (f : Option (File T X Y G)) :
    effects me (graphStorage file w) f = some (graphFile me w.cs w.noGraph) := by
  unfold graphStorage
  rw [effects_append, effects_fresh]
  simp [effects, Op.effect, constructIn, find, graphFile]

theorem effects_fill (me : Info) (gs : List G) (g : G) :
    effects me (fill file w gs) (some (graphFile me w.cs g)) = some (graphFile me w.cs ((g :: gs).getLast (by simp))) := by
  induction gs generalizing g with
  | nil => rfl
  | cons a gs ih =>
    have : effects me (fill file w (a :: gs)) (some (graphFile me w.cs g)) =
        effects me (fill file w gs) (some (graphFile me w.cs a)) := by
      simp [effects, fill, Op.effect, graphFile, assignIn]
    rw [this, ih]
    simp

theorem effects_attempts (me : Info) (fs : List (List G)) (g : G) :
    ∃ g', effects me (fs.map (fun gs => fill file w gs ++ graphStorage file w)).flatten (some (graphFile me w.cs g)) =
      some (graphFile me w.cs g') := by
  induction fs generalizing g with
  | nil => exact ⟨g, rfl⟩
  | cons a fs ih =>
    simp only [List.map_cons, List.flatten_cons, effects_append, effects_graphStorage]
    exact ih _

theorem effects_graphOps (me : Info) (g : G) :
    effects me (graphOps file w) (some (graphFile me w.cs g)) = some (graphFile me w.cs w.graph) := by
  unfold graphOps
  rw [effects_append]
  obtain ⟨g', hg⟩ := effects_attempts (file := file) w me w.failed g
  rw [hg, effects_fill]
  congr 2
  simp only [← List.cons_append, List.getLast_concat]

theorem effects_tagOps (me : Info) (t : T) :
    effects me (tagOps file w) (some (.storage (some me) [(.tags, .tags t)])) = some (.storage (some me) [(.tags, .tags w.tags)]) := by
  have : ∀ (ts : List T) (t : T), effects me (ts.map (fun t => (.assign (file .tags) .tags (.tags t) : Op T X Y G)))
      (some (.storage (some me) [(.tags, .tags t)])) = some (.storage (some me) [(.tags, .tags ((t :: ts).getLast (by simp)))]) := by
    intro ts
    induction ts with
    | nil => intro t; rfl
    | cons a ts ih =>
      intro t
      have : effects me ((a :: ts).map (fun t => (.assign (file .tags) .tags (.tags t) : Op T X Y G)))
          (some (.storage (some me) [(.tags, .tags t)])) =
          effects me (ts.map (fun t => (.assign (file .tags) .tags (.tags t) : Op T X Y G)))
          (some (.storage (some me) [(.tags, .tags a)])) := by
        simp [effects, Op.effect, assignIn]
      rw [this, ih]
      simp
  unfold tagOps
  rw [this]
  congr 4
  simp only [← List.cons_append, List.getLast_concat]

theorem effects_indexOps (me : Info) :
    effects me (indexOps file w) (some (.storage (some me) [])) =
      some (.storage (some me) [(.points w.cs, .points w.points), (.segments w.cs, .segments w.segments)]) := by
  have : ∀ (bs : List Bool), effects me (bs.map (fun b => only b (indexPoints file w) ++ fresh (file .index))).flatten
      (some (.storage (some me) [])) = some (.storage (some me) []) := by
    intro bs
    induction bs with
    | nil => rfl
    | cons b bs ih =>
      simp only [List.map_cons, List.flatten_cons, effects_append, effects_fresh]
      exact ih
  unfold indexOps
  rw [effects_append, effects_append, this]
  simp [effects, indexPoints, indexSegments, Op.effect, constructIn, find]

theorem effects_serializeTo (me : Info) (b : Bool) (n : Nat) (vs : List (Val T X Y G)) (f : Option (File T X Y G)) :
    effects me (serializeTo b n vs) f = if b then some (.archive vs) else f := by
  cases b <;> rfl

/-- The file of a part after a preparation by the program `me`. -/
theorem prepared_file (hinj : Function.Injective file) (me : Info) (ok : Nat → Bool) (d : Disk T X Y G) (p : Part) :
    run me d (prepare file m w ok) (file p) =
      match p with
      | .tags => if m.final.tags then some (.storage (some me) [(.tags, .tags w.tags)])
          else if ok (file .tags) then some (.archive [.tags w.tags]) else d (file .tags)
      | .index => if m.final.indices then
            some (.storage (some me) [(.points w.cs, .points w.points), (.segments w.cs, .segments w.segments)])
          else if ok (file .index) then some (.archive [.points w.points, .segments w.segments]) else d (file .index)
      | .graph => if m.final.graph then some (graphFile me w.cs w.graph)
          else if ok (file .graph) then some (.archive [.graph w.graph]) else d (file .graph)
      | .osmTags => if w.osm && m.osmTags then none else d (file .osmTags)
      | .osmVertices => if w.osm && m.osmVertices then none else d (file .osmVertices)
      | .importTags => if m.tagsImport then none else d (file .importTags)
      | .importGraph => if m.graphImport then none else d (file .importGraph)
      | .indexBuild => if m.indexBuild then none else d (file .indexBuild) := by
  rw [run_file, on_prepare m w hinj]
  cases p
  · cases h : m.final.tags
    · simp [only, effects_serializeTo]
    · simp only [only, if_true, Bool.not_true, Bool.false_eq_true, if_false, List.append_nil, effects_append, effects_fresh]
      exact effects_tagOps w me w.noTags
  · cases h : m.final.indices
    · simp [only, effects_serializeTo]
    · simp [only, effects_append, effects_fresh, effects_indexOps]
  · cases h : m.final.graph
    · simp [only, effects_serializeTo]
    · simp [only, effects_append, effects_graphStorage, effects_graphOps]
  · cases w.osm <;> cases m.osmTags <;> rfl
  · cases w.osm <;> cases m.osmVertices <;> rfl
  · cases m.tagsImport <;> rfl
  · cases m.graphImport <;> rfl
  · cases m.indexBuild <;> rfl

/-! ## C81 -/

/-- The network a preparation was to store. -/
def wanted (w : Work T X Y G) : Opened T X Y G :=
  ⟨w.cs, [.tags w.tags], [.points w.points, .segments w.segments], [.graph w.graph]⟩

/-- **C81.** A completed preparation leaves files from which the same program, with the same options, opens exactly the
network prepared, whatever was in the directory before (older networks, leftovers of interrupted runs), and however often
storage had to be enlarged on the way. -/
theorem prepared (hinj : Function.Injective file) (me : Info) (ok : Nat → Bool) (hok : ∀ p, ok (file p) = true) (d : Disk T X Y G) :
    openNetwork me w.cs m.final (run me d (prepare file m w ok)) file = .ok (wanted w) := by
  have h1 := prepared_file m w hinj me ok d .tags
  have h2 := prepared_file m w hinj me ok d .index
  have h3 := prepared_file m w hinj me ok d .graph
  simp only [hok, if_true] at h1 h2 h3
  unfold openNetwork openMapped loadPart openStorage openArchive
  rw [h1, h2, h3]
  cases m.final.tags <;> cases m.final.indices <;> cases m.final.graph <;>
    simp [infoOk, needAll, need, find, graphFile, wanted]

/-- **C81.** Nothing else in the directory is touched, and no temporary file is left. -/
theorem others (hinj : Function.Injective file) (me : Info) (ok : Nat → Bool) (d : Disk T X Y G) :
    (∀ n, (∀ p, file p ≠ n) → run me d (prepare file m w ok) n = d n) ∧
    (∀ p, p.temporary = true → run me d (prepare file m w ok) (file p) = none ∨ run me d (prepare file m w ok) (file p) = d (file p)) ∧
    (∀ p, p.temporary = true → d (file p) = none → run me d (prepare file m w ok) (file p) = none) := by
  refine ⟨?_, ?_, ?_⟩
  · intro n hn
    rw [run_file]
    rw [on_other m w ok n hn]; rfl
  · intro p hp
    rw [prepared_file m w hinj me ok d p]
    cases p <;> simp only [Part.temporary, Bool.false_eq_true] at hp ⊢ <;> (split <;> simp)
  · intro p hp hd
    rw [prepared_file m w hinj me ok d p]
    cases p <;> simp only [Part.temporary, Bool.false_eq_true] at hp ⊢ <;> (split <;> simp [hd])

theorem on_take {n : Nat} (l : List (Op T X Y G)) (k : Nat) : on n (l.take k) <+: on n l :=
  (List.take_prefix k l).filter _

theorem openNetwork_congr (me : Info) (cs : Cs) (mm : Options.Mapped) (d e : Disk T X Y G) (h : ∀ p : Part, p.temporary = false → d (file p) = e (file p)) :
    openNetwork me cs mm d file = openNetwork me cs mm e file := by
  unfold openNetwork openMapped loadPart openStorage openArchive
  rw [h .tags rfl, h .index rfl, h .graph rfl]

/-- **C81.** A preparation interrupted while it reads its input has not touched the network that was there before. -/
theorem interrupted_reading_partial (hinj : Function.Injective file) (me you : Info) (cs : Cs) (mm : Options.Mapped) (ok : Nat → Bool)
    (d : Disk T X Y G) (k : Nat) (hk : k ≤ (importBegin file m ++ osmImport file m w).length) :
    openNetwork you cs mm (run me d ((prepare file m w ok).take k)) file = openNetwork you cs mm d file := by
  refine openNetwork_congr you cs mm _ _ (fun p hp => ?_)
  have e : (prepare file m w ok).take k = (importBegin file m ++ osmImport file m w).take k := by
    simp only [prepare, List.append_assoc]
    rw [← List.append_assoc (importBegin file m), List.take_append_of_le_length hk]
  have f1 := fun (n k : Nat) => on_const k (fresh_file (T := T) (X := X) (Y := Y) (G := G) n)
  have f6 : ∀ (n k : Nat), on k ([.remove n] : List (Op T X Y G)) = if n = k then [.remove n] else [] :=
    fun n k => on_const k (by simp [Op.file])
  have h0 : on (file p) (importBegin file m ++ osmImport file m w) = [] := by
    simp only [importBegin, osmImport, on_append, on_only, f1, f6, hinj.eq_iff]
    cases p <;> simp [Part.temporary] at hp <;> simp [only_nil]
  have := on_take (n := file p) (importBegin file m ++ osmImport file m w) k
  rw [h0, List.prefix_nil] at this
  rw [run_file, e, this]
  rfl

theorem torn_or (me : Info) (n : Nat) (b : Bool) (vs : List (Val T X Y G)) (f : Option (File T X Y G)) (l : List (Op T X Y G))
    (h : l <+: serializeTo b n vs) : effects me l f = f ∨ effects me l f = some .torn ∨ effects me l f = some (.archive vs) := by
  cases b with
  | false =>
    simp only [serializeTo, only, Bool.false_eq_true, if_false, List.prefix_nil] at h
    rw [h]; exact .inl rfl
  | true =>
    obtain ⟨r, hr⟩ := h
    simp only [serializeTo, only, if_true] at hr
    cases l with
    | nil => exact .inl rfl
    | cons a l =>
      simp only [List.cons_append, List.cons.injEq] at hr
      obtain ⟨rfl, hr⟩ := hr
      cases l with
      | nil => exact .inr (.inl rfl)
      | cons b l =>
        simp only [List.cons_append, List.cons.injEq] at hr
        obtain ⟨rfl, hr⟩ := hr
        simp only [List.append_eq_nil_iff] at hr
        rw [hr.1]
        exact .inr (.inr rfl)

/-- **C81.** Without storages (no memory mapping of the network): after a crash at any point, a network that can be opened has
only parts that are complete, each one the old or the new one. -/
theorem interrupted_archives_partial (hinj : Function.Injective file) (me you : Info) (cs : Cs) (ok : Nat → Bool) (d : Disk T X Y G)
    (hm : m.final = ⟨false, false, false⟩) (k : Nat) (o : Opened T X Y G)
    (ho : openNetwork you cs ⟨false, false, false⟩ (run me d ((prepare file m w ok).take k)) file = .ok o) :
    (o.tags = (wanted w).tags ∨ openArchive d (file .tags) = .ok o.tags) ∧
    (o.index = (wanted w).index ∨ openArchive d (file .index) = .ok o.index) ∧
    (o.graph = (wanted w).graph ∨ ∃ vs, openArchive d (file .graph) = .ok vs ∧ o.graph = vs.take 1) := by
  have key : ∀ (p : Part) (vs : List (Val T X Y G)) (b : Bool), on (file p) (prepare file m w ok) = serializeTo b (file p) vs →
      ∀ us, openArchive (run me d ((prepare file m w ok).take k)) (file p) = .ok us → us = vs ∨ openArchive d (file p) = .ok us := by
    intro p vs b hp us hu
    have hpre := on_take (n := file p) (prepare file m w ok) k
    rw [hp] at hpre
    unfold openArchive at hu ⊢
    rw [run_file] at hu
    rcases torn_or me (file p) b vs (d (file p)) _ hpre with h | h | h <;> rw [h] at hu
    · exact .inr hu
    · simp at hu
    · simp at hu; exact .inl hu.symm
  have h1 := on_prepare m w hinj ok .tags
  have h2 := on_prepare m w hinj ok .index
  have h3 := on_prepare m w hinj ok .graph
  simp only [hm, only, Bool.false_eq_true, if_false, List.append_nil, List.nil_append, Bool.not_false, if_true] at h1 h2 h3
  unfold openNetwork openMapped loadPart at ho
  simp only [Bool.false_eq_true, if_false, Outcome.bind_ok] at ho
  cases a1 : openArchive (run me d ((prepare file m w ok).take k)) (file .tags) with
  | ok t =>
    cases a2 : openArchive (run me d ((prepare file m w ok).take k)) (file .index) with
    | ok i =>
      cases a3 : openArchive (run me d ((prepare file m w ok).take k)) (file .graph) with
      | ok g =>
        rw [a1, a2, a3] at ho
        simp at ho
        subst ho
        refine ⟨key .tags _ _ h1 t a1, key .index _ _ h2 i a2, ?_⟩
        rcases key .graph _ _ h3 g a3 with h | h
        · left; rw [h]; rfl
        · exact .inr ⟨g, h, rfl⟩
      | throws => rw [a1, a2, a3] at ho; simp at ho
      | ub => rw [a1, a2, a3] at ho; simp at ho
    | throws => rw [a1, a2] at ho; simp at ho
    | ub => rw [a1, a2] at ho; simp at ho
  | throws => rw [a1] at ho; simp at ho
  | ub => rw [a1] at ho; simp at ho

/-! ### Exceptions -/

theorem open?_mem (temp : Nat → Bool) (n : Nat) (ops : List (Op T X Y G)) : n ∈ open? temp ops ↔ n ∈ open? temp (on n ops) := by
  have key : ∀ (ops : List (Op T X Y G)) (a b : List Nat), (n ∈ a ↔ n ∈ b) →
      (n ∈ ops.foldl (fun acc o => match o with
        | .create n => if temp n then acc ++ [n] else acc
        | .remove n => acc.filter (fun k => decide (k ≠ n))
        | _ => acc) a ↔
      n ∈ (on n ops).foldl (fun acc o => match o with
        | .create n => if temp n then acc ++ [n] else acc
        | .remove n => acc.filter (fun k => decide (k ≠ n))
        | _ => acc) b) := by
    intro ops
    induction ops with
    | nil => intro a b h; exact h
    | cons o ops ih =>
      intro a b h
      by_cases ho : o.file = n
      · have : on n (o :: ops) = o :: on n ops := by simp [on, ho]
        rw [this, List.foldl_cons, List.foldl_cons]
        refine ih _ _ ?_
        cases o <;> simp only [Op.file] at ho <;> simp only []
        · simp [ho]
        · subst ho; split <;> simp [h]
        all_goals exact h
      · have : on n (o :: ops) = on n ops := by simp [on, ho]
        rw [this, List.foldl_cons]
        refine ih _ _ ?_
        cases o <;> simp only [Op.file] at ho <;> simp only []
        · simp [h, Ne.symm ho]
        · split <;> simp [h, Ne.symm ho]
        all_goals exact h
  exact key ops [] [] Iff.rfl

theorem removed (me : Info) (l : List Nat) (d : Disk T X Y G) (n : Nat) :
    run me d (l.map .remove) n = if n ∈ l then none else d n := by
  induction l generalizing d with
  | nil => rfl
  | cons a l ih =>
    show run me (step me d (.remove a)) (l.map .remove) n = _
    rw [ih]
    by_cases h : n ∈ l
    · simp [h]
    · by_cases e : n = a
      · simp [h, e, step, Op.file, Op.effect]
      · simp [h, e, step, Op.file]

theorem run_append (me : Info) (d : Disk T X Y G) (a b : List (Op T X Y G)) : run me d (a ++ b) = run me (run me d a) b := by
  simp [run]

/-- **C81.** An exception at any point leaves no temporary file that the preparation made. -/
theorem exception_cleans (hinj : Function.Injective file) (me : Info) (ok : Nat → Bool) (d : Disk T X Y G) (temp : Nat → Bool)
    (ht : ∀ p, temp (file p) = p.temporary) (k : Nat) (p : Part) (hp : p.temporary = true) :
    run me d (unwind temp ((prepare file m w ok).take k)) (file p) = none ∨
    run me d (unwind temp ((prepare file m w ok).take k)) (file p) = d (file p) := by
  unfold unwind
  rw [run_append, removed]
  by_cases hin : file p ∈ open? temp ((prepare file m w ok).take k)
  · rw [if_pos hin]; exact .inl rfl
  · rw [if_neg hin, run_file]
    have hpre := on_take (n := file p) (prepare file m w ok) k
    rw [open?_mem] at hin
    have hl : on (file p) (prepare file m w ok) = [] ∨ on (file p) (prepare file m w ok) =
        [.remove (file p), .create (file p), .info (file p), .remove (file p)] := by
      rw [on_prepare m w hinj]
      cases p <;> simp only [Part.temporary, Bool.false_eq_true] at hp
      · cases w.osm <;> cases m.osmTags <;> simp [only, fresh]
      · cases w.osm <;> cases m.osmVertices <;> simp [only, fresh]
      · cases m.tagsImport <;> simp [only, fresh]
      · cases m.graphImport <;> simp [only, fresh]
      · cases m.indexBuild <;> simp [only, fresh]
    rcases hl with hl | hl
    · rw [hl, List.prefix_nil] at hpre
      rw [hpre]; exact .inr rfl
    · rw [hl] at hpre
      generalize on (file p) ((prepare file m w ok).take k) = l at hpre hin
      have hlen := hpre.length_le
      rw [List.prefix_iff_eq_take] at hpre
      have htp := ht p
      rw [hp] at htp
      simp only [List.length_cons, List.length_nil] at hlen
      rcases (by omega : l.length = 0 ∨ l.length = 1 ∨ l.length = 2 ∨ l.length = 3 ∨ l.length = 4) with h | h | h | h | h <;>
        rw [h] at hpre <;> simp only [List.take_zero, List.take_succ_cons] at hpre <;> subst hpre
      · exact .inr rfl
      · exact .inl rfl
      · simp [open?, htp] at hin
      · simp [open?, htp] at hin
      · exact .inl rfl

/-- **C81.** After a crash at any point of any preparation, preparing again gives the network wanted. -/
theorem prepared_again (hinj : Function.Injective file) (me you : Info) (m' : Options.PrepareMapped) (w' : Work T X Y G)
    (ok ok' : Nat → Bool) (hok : ∀ p, ok (file p) = true) (d : Disk T X Y G) (k : Nat) :
    openNetwork me w.cs m.final (run me (run you d ((prepare file m' w' ok').take k)) (prepare file m w ok)) file = .ok (wanted w) :=
  prepared m w hinj me ok hok _

/-! ### Other programs and other options -/

/-- **C81.** A network with a part in a storage is refused by another version of the program and by one of another compiler,
before any of it is used. -/
theorem version_refused_partial (hinj : Function.Injective file) (me you : Info) (hne : you ≠ me) (cs : Cs) (ok : Nat → Bool)
    (d : Disk T X Y G) (hm : m.final.tags = true ∨ m.final.indices = true ∨ m.final.graph = true) :
    openNetwork you cs m.final (run me d (prepare file m w ok)) file = .throws := by
  have h1 := prepared_file m w hinj me ok d .tags
  have h2 := prepared_file m w hinj me ok d .index
  have h3 := prepared_file m w hinj me ok d .graph
  have hi : infoOk you (some me) = false := by
    by_contra h
    rw [Bool.not_eq_false] at h
    simp only [infoOk, Bool.and_eq_true, decide_eq_true_eq] at h
    apply hne
    cases you; cases me
    simp_all
  unfold openNetwork openMapped openStorage
  rw [h1, h2, h3]
  cases e1 : m.final.tags <;> cases e2 : m.final.indices <;> cases e3 : m.final.graph <;>
    simp [graphFile, hi]
  simp_all

/-- **C81.** A network is refused if the options of matching say something else about storages than those of its
preparation. -/
theorem kinds_refused (hinj : Function.Injective file) (me : Info) (mm : Options.Mapped) (hne : mm ≠ m.final) (ok : Nat → Bool)
    (hok : ∀ p, ok (file p) = true) (d : Disk T X Y G) :
    openNetwork me w.cs mm (run me d (prepare file m w ok)) file = .throws := by
  have h1 := prepared_file m w hinj me ok d .tags
  have h2 := prepared_file m w hinj me ok d .index
  have h3 := prepared_file m w hinj me ok d .graph
  simp only [hok, if_true] at h1 h2 h3
  unfold openNetwork openMapped loadPart openStorage openArchive
  rw [h1, h2, h3]
  obtain ⟨⟨a, b, c⟩, _, _, _, _, _⟩ := m
  obtain ⟨a', b', c'⟩ := mm
  simp only [ne_eq, Options.Mapped.mk.injEq] at hne
  cases a <;> cases b <;> cases c <;> cases a' <;> cases b' <;> cases c' <;>
    first
    | exact absurd ⟨rfl, rfl, rfl⟩ hne
    | simp [infoOk, needAll, need, find, graphFile]

/-! ### Examples and counterexamples -/

/-- The files of the options have names of their own. -/
def demoFile : Part → Nat
  | .tags => 0 | .index => 1 | .graph => 2 | .osmTags => 3 | .osmVertices => 4 | .importTags => 5 | .importGraph => 6 | .indexBuild => 7

theorem demoFile_injective : Function.Injective demoFile := by
  intro a b h
  cases a <;> cases b <;> simp [demoFile] at h <;> rfl

/-- Everything in storages. -/
def demoMapped : Options.PrepareMapped := ⟨⟨true, true, true⟩, true, true, true, true, true⟩

/-- The network in archives, the rest in storages. -/
def demoArchives : Options.PrepareMapped := ⟨⟨false, false, false⟩, true, true, true, true, true⟩

/-- A preparation with two failed attempts for the graph and two for the index. -/
def demoWork : Work Nat Nat Nat Nat where
  osm := true
  cs := .geographic
  noTags := 0
  noGraph := 0
  tagsOnTheWay := [1, 2]
  failed := [[1], [1, 2]]
  onTheWay := [1, 2]
  indexFailed := [false, true]
  tags := 10
  points := 11
  segments := 12
  graph := 13

def demoMe : Info := ⟨1, 1⟩

/-- An older network in archives, a leftover of an interrupted run, and a file of somebody else. -/
def demoDisk : Disk Nat Nat Nat Nat
  | 0 => some (.archive [.tags 20])
  | 1 => some (.archive [.points 21, .segments 22])
  | 2 => some (.archive [.graph 23])
  | 6 => some (.storage (some demoMe) [(.graph .cartesian, .graph 5)])
  | 9 => some .foreign
  | _ => none

/-- `prepared`, `prepared_again`. -/
example : openNetwork demoMe .geographic ⟨true, true, true⟩ (run demoMe demoDisk (prepare demoFile demoMapped demoWork fun _ => true))
    demoFile = .ok ⟨.geographic, [.tags 10], [.points 11, .segments 12], [.graph 13]⟩ :=
  prepared demoMapped demoWork demoFile_injective demoMe (fun _ => true) (fun _ => rfl) demoDisk

example : openNetwork demoMe .geographic ⟨false, false, false⟩
    (run demoMe (run demoMe demoDisk ((prepare demoFile demoMapped demoWork fun _ => true).take 40)) (prepare demoFile demoArchives demoWork fun _ => true))
    demoFile = .ok ⟨.geographic, [.tags 10], [.points 11, .segments 12], [.graph 13]⟩ :=
  prepared_again demoArchives demoWork demoFile_injective demoMe demoMe demoMapped demoWork (fun _ => true) (fun _ => true) (fun _ => rfl) demoDisk 40

/-- `others`: the file of somebody else is there, the leftover is gone. -/
example : run demoMe demoDisk (prepare demoFile demoMapped demoWork fun _ => true) 9 = some .foreign ∧
    run demoMe demoDisk (prepare demoFile demoMapped demoWork fun _ => true) 6 = none := by decide

/-- `interrupted_reading_partial`: the old network can be opened after a crash while reading. -/
example : 8 ≤ (importBegin demoFile demoArchives ++ osmImport demoFile demoArchives demoWork).length ∧
    openNetwork demoMe .geographic ⟨false, false, false⟩ (run demoMe demoDisk ((prepare demoFile demoArchives demoWork fun _ => true).take 8))
      demoFile = .ok ⟨.geographic, [.tags 20], [.points 21, .segments 22], [.graph 23]⟩ := by decide

/-- `interrupted_archives_partial`: what can be opened at the points of a crash near the end. -/
example : (List.range 8).map (fun k => openNetwork demoMe .geographic ⟨false, false, false⟩
      (run demoMe demoDisk ((prepare demoFile demoArchives demoWork fun _ => true).take (19 + k))) demoFile) =
    [.ok ⟨.geographic, [.tags 20], [.points 21, .segments 22], [.graph 23]⟩, .throws,
     .ok ⟨.geographic, [.tags 10], [.points 21, .segments 22], [.graph 23]⟩, .throws,
     .ok ⟨.geographic, [.tags 10], [.points 11, .segments 12], [.graph 23]⟩, .throws,
     .ok ⟨.geographic, [.tags 10], [.points 11, .segments 12], [.graph 13]⟩,
     .ok ⟨.geographic, [.tags 10], [.points 11, .segments 12], [.graph 13]⟩] := by decide

/-- `exception_cleans`: an exception while the graph is written; three temporary files existed. -/
example : open? (fun n => decide (3 ≤ n)) ((prepare demoFile demoMapped demoWork fun _ => true).take 33) = [5, 6, 7] ∧
    (List.range 8).map (run demoMe demoDisk (unwind (fun n => decide (3 ≤ n)) ((prepare demoFile demoMapped demoWork fun _ => true).take 33))) =
      [some (.storage (some demoMe) [(.tags, .tags 10)]), some (.storage (some demoMe) []),
       some (.storage (some demoMe) [(.graph .geographic, .graph 1), (.vertexMap .geographic, .nothing)]), none, none, none, none, none] := by
  decide

/-- `version_refused_partial`, `kinds_refused`. -/
example : openNetwork ⟨1, 2⟩ .geographic ⟨true, true, true⟩ (run demoMe demoDisk (prepare demoFile demoMapped demoWork fun _ => true))
    demoFile = .throws ∧
    openNetwork demoMe .geographic ⟨true, true, false⟩ (run demoMe demoDisk (prepare demoFile demoMapped demoWork fun _ => true))
    demoFile = .throws := by decide

/-- **C81 is false in general.** The files of the old network are not replaced at once: a crash can leave a network that is
opened without complaint and has new tags with an old index and graph. -/
theorem mixed_fails : ∃ k, openNetwork demoMe .geographic ⟨false, false, false⟩
      (run demoMe demoDisk ((prepare demoFile demoArchives demoWork fun _ => true).take k)) demoFile =
    .ok ⟨.geographic, [.tags 10], [.points 21, .segments 22], [.graph 23]⟩ := ⟨21, by decide⟩

/-- **C81 is false in general.** Storages say who made them before they are filled: a crash can leave a graph that is not
complete and is opened without complaint. -/
theorem unfinished_fails : ∃ k, openNetwork demoMe .geographic ⟨true, false, false⟩
      (run demoMe demoDisk ((prepare demoFile ⟨⟨true, false, false⟩, true, true, true, true, true⟩ demoWork fun _ => true).take k)) demoFile =
    .ok ⟨.geographic, [.tags 20], [.points 21, .segments 22], [.graph 2]⟩ := ⟨37, by decide⟩

/-- **C81 is false in general.** An index that was not built when the program ended is a null pointer. -/
theorem unbuilt_fails : ∃ k, openNetwork demoMe .geographic ⟨true, true, true⟩
      (run demoMe demoDisk ((prepare demoFile demoMapped demoWork fun _ => true).take k)) demoFile = .ub := ⟨40, by decide⟩

/-- **C81 is false in general.** An archive does not say which version of the program made it. -/
theorem version_fails : openNetwork ⟨2, 2⟩ .geographic ⟨false, false, false⟩
    (run demoMe demoDisk (prepare demoFile demoArchives demoWork fun _ => true)) demoFile = .ok (wanted demoWork) := by decide

/-- **C81 is false in general.** The kind of coordinates is not stored: with another kind in the options a network in
storages is undefined behaviour, one in archives is read with its numbers taken for other ones. -/
theorem coordinates_fails :
    openNetwork demoMe .cartesian ⟨true, true, true⟩
      (run demoMe demoDisk (prepare demoFile demoMapped demoWork fun _ => true)) demoFile = .ub ∧
    openNetwork demoMe .cartesian ⟨false, false, false⟩
      (run demoMe demoDisk (prepare demoFile demoArchives demoWork fun _ => true)) demoFile =
    .ok ⟨.cartesian, [.tags 10], [.points 11, .segments 12], [.graph 13]⟩ := by decide

/-- **C81 is false in general.** An archive that cannot be written is left out without complaint; the preparation ends and
the old network stays. -/
theorem unwritable_fails : openNetwork demoMe .geographic ⟨false, false, false⟩
    (run demoMe demoDisk (prepare demoFile demoArchives demoWork fun _ => false)) demoFile =
    .ok ⟨.geographic, [.tags 20], [.points 21, .segments 22], [.graph 23]⟩ := by decide

/-- **C81 is false in general.** An archive that exists and may not be read is taken for an empty one. -/
theorem unreadable_fails : openNetwork demoMe .geographic ⟨false, false, false⟩
    (fun n => if n = 2 then some .locked else run demoMe demoDisk (prepare demoFile demoArchives demoWork fun _ => true) n) demoFile =
    .ok ⟨.geographic, [.tags 10], [.points 11, .segments 12], []⟩ := by decide

end MM.NetDisk
