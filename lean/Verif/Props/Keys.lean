import Verif.Model.Keys
import Verif.Props.Ordering

/-! # C120: nodes, edges, lines and segments as keys of hashed containers -/

set_option autoImplicit false
set_option linter.unusedSectionVars false

namespace MM.Keys

open MM.Ordering

variable {L W : Type} [LinearOrder L]

/-- The value of a coordinate, if it is a number. -/
def value : Num L → Option L
  | .nan => none
  | .val v _ => some v

theorem num_eq_iff (a b : Num L) : a.eq b = true ↔ ∃ v, value a = some v ∧ value b = some v := by
  cases a <;> cases b <;> simp [Num.eq, value]
  grind

theorem num_hash (H : Hashing L W) {a b : Num L} (h : a.eq b = true) : numHash H.num H.nan a = numHash H.num H.nan b := by
  cases a <;> cases b <;> simp_all [Num.eq, numHash]

/-- The values of both coordinates of a point, if they are numbers. -/
def place (p : Pt L) : Option (L × L) :=
  match value p.x, value p.y with
  | some a, some b => some (a, b)
  | _, _ => none

/-- **C120**: two points are equal exactly if they have the same place. -/
theorem points_equal (a b : Pt L) : (equalsPoints a b = true ↔ ∃ v, place a = some v ∧ place b = some v) ∧ equalsPoints a b = a.eq b := by
  obtain ⟨ax, ay⟩ := a
  obtain ⟨bx, bz⟩ := b
  constructor
  · cases ax <;> cases ay <;> cases bx <;> cases bz <;> simp [equalsPoints, Num.eq, place, value] <;> grind
  · simp [equalsPoints, Pt.eq, pointEq]

example : equalsPoints (⟨.val 3 false, .val 0 false⟩ : Pt Int) ⟨.val 3 false, .val 0 true⟩ = true := by decide
example : equalsPoints (⟨.val 3 false, .val 0 false⟩ : Pt Int) ⟨.val 3 false, .val 1 false⟩ = false := by decide

/-- The places of all points of a line, if all coordinates are numbers. -/
def places (l : List (Pt L)) : Option (List (L × L)) := l.mapM place

theorem linePoints_cons (p q : Pt L) (a b : List (Pt L)) : linePoints (p :: a) (q :: b) = (equalsPoints p q && linePoints a b) := by
  simp only [linePoints, List.length_cons, List.range_succ_eq_map, List.all_cons, List.all_map]
  congr 1

theorem lineEq_cons (p q : Pt L) (a b : List (Pt L)) : lineEq (p :: a) (q :: b) = (equalsPoints p q && lineEq a b) := by
  simp only [lineEq, List.length_cons, linePoints_cons]
  by_cases h : a.length = b.length <;> simp [h]

/-- **C120**: two lines are equal exactly if their points have the same places, one after the other. -/
theorem lines_equal (a b : List (Pt L)) : lineEq a b = true ↔ ∃ v, places a = some v ∧ places b = some v := by
  induction a generalizing b with
  | nil =>
    cases b with
    | nil => simp [lineEq, linePoints, places]
    | cons q b =>
      simp only [lineEq, places, List.mapM_nil, List.mapM_cons]
      simp
      cases hq : place q <;> cases hb : List.mapM place b <;> simp
  | cons p a ih =>
    cases b with
    | nil =>
      simp only [lineEq, places, List.mapM_nil, List.mapM_cons]
      simp
      cases hq : place p <;> cases hb : List.mapM place a <;> simp
    | cons q b =>
      rw [lineEq_cons, Bool.and_eq_true, (points_equal p q).1, ih]
      simp only [places, List.mapM_cons]
      cases hp : place p <;> cases hq : place q <;> cases ha : List.mapM place a <;> cases hb : List.mapM place b <;> simp_all

example : lineEq [(⟨.val 3 false, .val 0 false⟩ : Pt Int), ⟨.val 4 false, .val 4 false⟩] [⟨.val 3 false, .val 0 true⟩, ⟨.val 4 false, .val 4 false⟩] = true := by
  decide
example : lineEq [(⟨.val 3 false, .val 0 false⟩ : Pt Int), ⟨.val 4 false, .val 4 false⟩] [⟨.val 3 false, .val 0 true⟩] = false := by decide

/-- **C120**: a segment, a node and an edge are equal to another exactly if identifier and places are the same. -/
theorem others_equal (s t : Seg L) (m n : Node L) (e f : Edge L) :
    (s.eq t = true ↔ ∃ v w, place s.first = some v ∧ place t.first = some v ∧ place s.second = some w ∧ place t.second = some w) ∧
    (m.eq n = true ↔ m.id = n.id ∧ ∃ v, place m.point = some v ∧ place n.point = some v) ∧
    (e.eq f = true ↔ e.id = f.id ∧ ∃ v, places e.line = some v ∧ places f.line = some v) := by
  refine ⟨?_, ?_, ?_⟩
  · simp only [Seg.eq, Bool.and_eq_true, (points_equal _ _).1]
    grind
  · simp only [Node.eq, Bool.and_eq_true, (points_equal _ _).1, decide_eq_true_eq]
  · simp only [Edge.eq, Bool.and_eq_true, lines_equal, decide_eq_true_eq]

example : (⟨7, ⟨.val 3 false, .val 0 false⟩⟩ : Node Int).eq ⟨7, ⟨.val 3 false, .val 0 true⟩⟩ = true ∧
    (⟨7, ⟨.val 3 false, .val 0 false⟩⟩ : Node Int).eq ⟨8, ⟨.val 3 false, .val 0 true⟩⟩ = false := by decide

theorem point_hash (H : Hashing L W) {a b : Pt L} (h : equalsPoints a b = true) : a.hash H = b.hash H := by
  simp only [equalsPoints, Bool.and_eq_true] at h
  simp [Pt.hash, pointHash, num_hash H h.1, num_hash H h.2]

theorem line_hash_from (H : Hashing L W) {a b : List (Pt L)} (h : lineEq a b = true) (seed : W) :
    a.foldl (fun seed p => H.mix seed (p.hash H)) seed = b.foldl (fun seed p => H.mix seed (p.hash H)) seed := by
  induction a generalizing b seed with
  | nil =>
    cases b with
    | nil => rfl
    | cons q b => simp [lineEq] at h
  | cons p a ih =>
    cases b with
    | nil => simp [lineEq] at h
    | cons q b =>
      rw [lineEq_cons, Bool.and_eq_true] at h
      simp only [List.foldl_cons, point_hash H h.1]
      exact ih h.2 _

/-- **C120**: what is equal has equal hashes, whatever the library computes. -/
theorem equal_hashes (H : Hashing L W) :
    (∀ a b : Pt L, a.eq b = true → a.hash H = b.hash H) ∧
    (∀ s t : Seg L, s.eq t = true → s.hash H = t.hash H) ∧
    (∀ a b : List (Pt L), lineEq a b = true → lineHash H a = lineHash H b) ∧
    (∀ m n : Node L, m.eq n = true → m.hash H = n.hash H) ∧
    (∀ e f : Edge L, e.eq f = true → e.hash H = f.hash H) := by
  refine ⟨?_, ?_, ?_, ?_, ?_⟩
  · intro a b h
    rw [← (points_equal a b).2] at h
    exact point_hash H h
  · intro s t h
    simp only [Seg.eq, Bool.and_eq_true] at h
    simp [Seg.hash, point_hash H h.1, point_hash H h.2]
  · intro a b h
    exact line_hash_from H h _
  · intro m n h
    simp only [Node.eq, Bool.and_eq_true, decide_eq_true_eq] at h
    simp [Node.hash, h.1, point_hash H h.2]
  · intro e f h
    simp only [Edge.eq, Bool.and_eq_true, decide_eq_true_eq] at h
    simp only [Edge.hash, h.1, lineHash, line_hash_from H h.2]

/-- Two nodes at the same place, written with different zeros. -/
example : (⟨7, ⟨.val 3 false, .val 0 false⟩⟩ : Node Int).hash (W := Int) ⟨fun v => 2 * v, 1, fun i => i, fun s x => 31 * s + x, 0⟩ =
    (⟨7, ⟨.val 3 false, .val 0 true⟩⟩ : Node Int).hash (W := Int) ⟨fun v => 2 * v, 1, fun i => i, fun s x => 31 * s + x, 0⟩ := by decide

/-- A comparison that may leave a key different from itself, but is otherwise an equality. -/
def Fair {K : Type} (eq : K → K → Bool) : Prop :=
  (∀ a b, eq a b = true → eq b a = true) ∧ (∀ a b c, eq a b = true → eq b c = true → eq a c = true)

/-- **C120**: the comparisons are symmetric and transitive. -/
theorem comparisons_fair : Fair (Pt.eq (L := L)) ∧ Fair (Seg.eq (L := L)) ∧ Fair (lineEq (L := L)) ∧ Fair (Node.eq (L := L)) ∧
    Fair (Edge.eq (L := L)) := by
  refine ⟨⟨?_, ?_⟩, ⟨?_, ?_⟩, ⟨?_, ?_⟩, ⟨?_, ?_⟩, ⟨?_, ?_⟩⟩
  · intro a b; rw [← (points_equal a b).2, ← (points_equal b a).2, (points_equal a b).1, (points_equal b a).1]; grind
  · intro a b c; rw [← (points_equal a b).2, ← (points_equal b c).2, ← (points_equal a c).2, (points_equal a b).1, (points_equal b c).1,
      (points_equal a c).1]; grind
  · intro a b; simp only [Seg.eq, Bool.and_eq_true, (points_equal _ _).1]; grind
  · intro a b c; simp only [Seg.eq, Bool.and_eq_true, (points_equal _ _).1]; grind
  · intro a b; simp only [lines_equal]; grind
  · intro a b c; simp only [lines_equal]; grind
  · intro a b; simp only [Node.eq, Bool.and_eq_true, (points_equal _ _).1, decide_eq_true_eq]; grind
  · intro a b c; simp only [Node.eq, Bool.and_eq_true, (points_equal _ _).1, decide_eq_true_eq]; grind
  · intro a b; simp only [Edge.eq, Bool.and_eq_true, lines_equal, decide_eq_true_eq]; grind
  · intro a b c; simp only [Edge.eq, Bool.and_eq_true, lines_equal, decide_eq_true_eq]; grind

example : (⟨5, [⟨.val 1 false, .val 0 false⟩]⟩ : Edge Int).eq ⟨5, [⟨.val 1 true, .val 0 false⟩]⟩ = true ∧
    (⟨5, [⟨.val 1 true, .val 0 false⟩]⟩ : Edge Int).eq ⟨5, [⟨.val 1 true, .val 0 true⟩]⟩ = true := by decide

/-- **C120**: whatever has numbers for coordinates equals itself. -/
theorem itself_partial (n : Node L) (e : Edge L) : (n.eq n = true ↔ (place n.point).isSome) ∧ (e.eq e = true ↔ (places e.line).isSome) := by
  constructor
  · rw [(others_equal ⟨n.point, n.point⟩ ⟨n.point, n.point⟩ n n e e).2.1]
    simp [Option.isSome_iff_exists]
  · rw [(others_equal ⟨n.point, n.point⟩ ⟨n.point, n.point⟩ n n e e).2.2]
    simp [Option.isSome_iff_exists]

example : (place (⟨.val 3 false, .val 0 true⟩ : Pt Int)).isSome = true ∧ (place (⟨.nan, .val 0 true⟩ : Pt Int)).isSome = false := by decide

variable {K V : Type}

/-- What a map should answer: what is stored under the keys equal to the one asked for. -/
def ideal (eq : K → K → Bool) : (K → Option V) → List (Op K V) → List (Option V)
  | _, [] => []
  | m, .find k :: os => m k :: ideal eq m os
  | m, .emplace k v :: os =>
    ideal eq (match m k with
      | some _ => m
      | none => fun c => if eq k c = true then some v else m c) os
  | m, .erase k :: os => ideal eq (fun c => if eq k c = true then none else m c) os
  | m, .grow _ :: os => ideal eq m os

/-- The entries are where their hashes send them, and no two of a bucket are equal. -/
def Good (eq : K → K → Bool) (hash : K → Nat) (t : Table K V) : Prop :=
  0 < t.n ∧ (∀ b, ∀ e ∈ t.buckets b, hash e.1 % t.n = b) ∧ (∀ b, (t.buckets b).Pairwise (fun e f => eq e.1 f.1 = false))

theorem find_unique {eq : K → K → Bool} (hf : Fair eq) {l : List (K × V)} (hp : l.Pairwise (fun e f => eq e.1 f.1 = false)) (k : K) (v : V) :
    (l.find? (fun e => eq e.1 k)).map Prod.snd = some v ↔ ∃ e ∈ l, eq e.1 k = true ∧ e.2 = v := by
  induction l with
  | nil => simp
  | cons a l ih =>
    rw [List.pairwise_cons] at hp
    by_cases ha : eq a.1 k = true
    · rw [List.find?_cons_of_pos (by simpa using ha)]
      constructor
      · intro h
        exact ⟨a, by simp, ha, by simpa using h⟩
      · rintro ⟨e, he, hek, rfl⟩
        rcases List.mem_cons.1 he with rfl | he'
        · rfl
        · have := hp.1 e he'
          rw [hf.2 _ _ _ ha (hf.1 _ _ hek)] at this
          cases this
    · rw [List.find?_cons_of_neg (by simpa using ha), ih hp.2]
      grind

theorem erase_filter {eq : K → K → Bool} (hf : Fair eq) {l : List (K × V)} (hp : l.Pairwise (fun e f => eq e.1 f.1 = false)) (k : K) :
    l.eraseP (fun e => eq e.1 k) = l.filter (fun e => !eq e.1 k) := by
  induction l with
  | nil => rfl
  | cons a l ih =>
    rw [List.pairwise_cons] at hp
    by_cases ha : eq a.1 k = true
    · rw [List.eraseP_cons_of_pos (p := fun e : K × V => eq e.1 k) ha, List.filter_cons_of_neg (by simp [ha]), eq_comm, List.filter_eq_self]
      intro e he
      have := hp.1 e he
      cases hek : eq e.1 k with
      | false => rfl
      | true => rw [hf.2 _ _ _ ha (hf.1 _ _ hek)] at this; cases this
    · rw [List.eraseP_cons_of_neg (p := fun e : K × V => eq e.1 k) ha, List.filter_cons_of_pos (by simp [ha]), ih hp.2]

theorem mem_entries {eq : K → K → Bool} {hash : K → Nat} {t : Table K V} (hg : Good eq hash t) (e : K × V) :
    e ∈ t.entries ↔ e ∈ t.buckets (hash e.1 % t.n) := by
  simp only [Table.entries, List.mem_flatMap, List.mem_range]
  constructor
  · rintro ⟨b, _, h⟩
    rw [hg.2.1 b e h]; exact h
  · intro h
    exact ⟨_, Nat.mod_lt _ hg.1, h⟩

theorem entries_pairwise {eq : K → K → Bool} {hash : K → Nat} (hh : ∀ a b, eq a b = true → hash a = hash b) {t : Table K V}
    (hg : Good eq hash t) : t.entries.Pairwise (fun e f => eq e.1 f.1 = false) := by
  rw [Table.entries, List.pairwise_flatMap]
  refine ⟨fun b _ => hg.2.2 b, ?_⟩
  refine (List.pairwise_lt_range (n := t.n)).imp ?_
  intro b c hbc e he f hf
  cases h : eq e.1 f.1 with
  | false => rfl
  | true =>
    have h1 := hg.2.1 b e he
    have h2 := hg.2.1 c f hf
    rw [hh _ _ h] at h1
    omega

theorem step_good {eq : K → K → Bool} {hash : K → Nat} (hh : ∀ a b, eq a b = true → hash a = hash b)
    {t : Table K V} (hg : Good eq hash t) (o : Op K V) : Good eq hash (t.step eq hash o).1 := by
  cases o with
  | find k => exact hg
  | emplace k v =>
    simp only [Table.step, Table.emplace]
    cases hfk : t.find eq hash k with
    | some w => exact hg
    | none =>
      have hno : ∀ e ∈ t.buckets (hash k % t.n), eq e.1 k = false := by
        simpa [Table.find] using hfk
      refine ⟨hg.1, ?_, ?_⟩
      · intro b e he
        simp only [Table.set] at he ⊢
        by_cases hb : b = hash k % t.n
        · rw [if_pos hb, List.mem_append, List.mem_singleton] at he
          rcases he with he | rfl
          · rw [hb]; exact hg.2.1 _ e he
          · exact hb.symm
        · rw [if_neg hb] at he
          exact hg.2.1 _ e he
      · intro b
        simp only [Table.set]
        by_cases hb : b = hash k % t.n
        · rw [if_pos hb, List.pairwise_append]
          refine ⟨hg.2.2 _, by simp, ?_⟩
          intro e he f hf'
          rw [List.mem_singleton] at hf'
          subst hf'
          exact hno e he
        · rw [if_neg hb]; exact hg.2.2 b
  | erase k =>
    refine ⟨hg.1, ?_, ?_⟩
    · intro b e he
      simp only [Table.step, Table.erase, Table.set] at he ⊢
      by_cases hb : b = hash k % t.n
      · rw [if_pos hb] at he
        rw [hb]; exact hg.2.1 _ e (List.mem_of_mem_eraseP he)
      · rw [if_neg hb] at he
        exact hg.2.1 _ e he
    · intro b
      simp only [Table.step, Table.erase, Table.set]
      by_cases hb : b = hash k % t.n
      · rw [if_pos hb]; exact (hg.2.2 _).sublist List.eraseP_sublist
      · rw [if_neg hb]; exact hg.2.2 b
  | grow n =>
    refine ⟨Nat.succ_pos n, ?_, ?_⟩
    · intro b e he
      simp only [Table.step, Table.rehash, List.mem_filter, decide_eq_true_eq] at he ⊢
      exact he.2
    · intro b
      exact (entries_pairwise hh hg).sublist List.filter_sublist

theorem find_iff {eq : K → K → Bool} {hash : K → Nat} (hf : Fair eq) {t : Table K V} (hg : Good eq hash t) (k : K) (v : V) :
    t.find eq hash k = some v ↔ ∃ e ∈ t.buckets (hash k % t.n), eq e.1 k = true ∧ e.2 = v :=
  find_unique hf (hg.2.2 _) k v

theorem opt_ext {A : Type} {a b : Option A} (h : ∀ v, a = some v ↔ b = some v) : a = b := by
  exact Option.ext h

theorem run_ideal {eq : K → K → Bool} {hash : K → Nat} (hf : Fair eq) (hh : ∀ a b, eq a b = true → hash a = hash b) (os : List (Op K V)) :
    ∀ {t : Table K V} {m : K → Option V}, Good eq hash t → (∀ k, t.find eq hash k = m k) → Table.run eq hash t os = ideal eq m os := by
  induction os with
  | nil => intros; rfl
  | cons o os ih =>
    intro t m hg hm
    have hg' := step_good hh hg o
    cases o with
    | find k => simp only [Table.run, Table.step, ideal, hm k, List.singleton_append]; rw [ih hg hm]
    | emplace k v =>
      simp only [Table.run, ideal]
      rw [show (t.step eq hash (.emplace k v)).2 = [] from rfl, List.nil_append]
      refine ih hg' ?_
      intro c
      rw [← hm k]
      cases hk : t.find eq hash k with
      | some w =>
        simp only [Table.step, Table.emplace, hk]
        exact hm c
      | none =>
        have hno : ∀ e ∈ t.buckets (hash k % t.n), eq e.1 k = false := by
          simpa [Table.find] using hk
        refine opt_ext fun w => ?_
        rw [find_iff hf hg']
        simp only [Table.step, Table.emplace, hk, Table.set]
        by_cases hkc : eq k c = true
        · rw [if_pos hkc, ← hh _ _ hkc, if_pos rfl]
          simp only [List.mem_append, List.mem_singleton]
          constructor
          · rintro ⟨e, he | rfl, hec, rfl⟩
            · have := hno e he
              rw [hf.2 _ _ _ hec (hf.1 _ _ hkc)] at this; cases this
            · rfl
          · intro h
            exact ⟨(k, v), Or.inr rfl, hkc, by simpa using h⟩
        · rw [if_neg hkc, ← hm c, find_iff hf hg]
          by_cases hb : hash c % t.n = hash k % t.n
          · rw [if_pos hb, hb]
            simp only [List.mem_append, List.mem_singleton]
            grind
          · rw [if_neg hb]
    | erase k =>
      simp only [Table.run, ideal]
      rw [show (t.step eq hash (.erase k)).2 = [] from rfl, List.nil_append]
      refine ih hg' ?_
      intro c
      refine opt_ext fun w => ?_
      rw [find_iff hf hg']
      simp only [Table.step, Table.erase, Table.set, erase_filter hf (hg.2.2 _)]
      by_cases hkc : eq k c = true
      · rw [if_pos hkc, ← hh _ _ hkc, if_pos rfl]
        simp only [List.mem_filter, reduceCtorEq, iff_false]
        rintro ⟨e, ⟨_, he⟩, hec, _⟩
        rw [hf.2 _ _ _ hec (hf.1 _ _ hkc)] at he
        cases he
      · rw [if_neg hkc, ← hm c, find_iff hf hg]
        by_cases hb : hash c % t.n = hash k % t.n
        · rw [if_pos hb, hb]
          simp only [List.mem_filter]
          constructor
          · rintro ⟨e, ⟨he, _⟩, h⟩; exact ⟨e, he, h⟩
          · rintro ⟨e, he, hec, h⟩
            refine ⟨e, ⟨he, ?_⟩, hec, h⟩
            cases hek : eq e.1 k with
            | false => rfl
            | true => exact absurd (hf.2 _ _ _ (hf.1 _ _ hek) hec) hkc
        · rw [if_neg hb]
    | grow n =>
      simp only [Table.run, ideal]
      rw [show (t.step eq hash (.grow n)).2 = [] from rfl, List.nil_append]
      refine ih hg' ?_
      intro c
      rw [← hm c]
      refine opt_ext fun w => ?_
      rw [find_iff hf hg', find_iff hf hg]
      simp only [Table.step, Table.rehash, List.mem_filter, decide_eq_true_eq]
      constructor
      · rintro ⟨e, ⟨he, _⟩, hec, h⟩
        rw [mem_entries hg, hh _ _ hec] at he
        exact ⟨e, he, hec, h⟩
      · rintro ⟨e, he, hec, h⟩
        refine ⟨e, ⟨?_, by rw [hh _ _ hec]⟩, hec, h⟩
        rw [mem_entries hg, hh _ _ hec]
        exact he

theorem new_ideal {eq : K → K → Bool} {hash : K → Nat} (hf : Fair eq) (hh : ∀ a b, eq a b = true → hash a = hash b) (n : Nat)
    (os : List (Op K V)) : Table.run eq hash (Table.empty (n + 1)) os = ideal eq (fun _ => none) os :=
  run_ideal hf hh os ⟨Nat.succ_pos n, by simp [Table.empty], by simp [Table.empty]⟩ (by intro k; simp [Table.find, Table.empty])

/-- **C120**: a hashed container with points, segments, lines, nodes or edges as keys answers every search with what is stored under an
equal key, after any operations, for any number of buckets and any hash functions of the library. -/
theorem containers_answer (H : Hashing L Nat) (n : Nat) :
    (∀ os : List (Op (Pt L) V), Table.run Pt.eq (Pt.hash H) (Table.empty (n + 1)) os = ideal Pt.eq (fun _ => none) os) ∧
    (∀ os : List (Op (Seg L) V), Table.run Seg.eq (Seg.hash H) (Table.empty (n + 1)) os = ideal Seg.eq (fun _ => none) os) ∧
    (∀ os : List (Op (List (Pt L)) V), Table.run lineEq (lineHash H) (Table.empty (n + 1)) os = ideal lineEq (fun _ => none) os) ∧
    (∀ os : List (Op (Node L) V), Table.run Node.eq (Node.hash H) (Table.empty (n + 1)) os = ideal Node.eq (fun _ => none) os) ∧
    (∀ os : List (Op (Edge L) V), Table.run Edge.eq (Edge.hash H) (Table.empty (n + 1)) os = ideal Edge.eq (fun _ => none) os) :=
  ⟨new_ideal comparisons_fair.1 (equal_hashes H).1 n, new_ideal comparisons_fair.2.1 (equal_hashes H).2.1 n,
    new_ideal comparisons_fair.2.2.1 (equal_hashes H).2.2.1 n, new_ideal comparisons_fair.2.2.2.1 (equal_hashes H).2.2.2.1 n,
    new_ideal comparisons_fair.2.2.2.2 (equal_hashes H).2.2.2.2 n⟩

/-- Hashes for the cases below. -/
def demoHash : Hashing Nat Nat := ⟨fun v => 2 * v, 1, fun i => i, fun s x => 31 * s + x, 0⟩

/-- Two vertices at one place and one at another, with a growth between. -/
example : Table.run Pt.eq (Pt.hash demoHash) (Table.empty 2)
    [.emplace ⟨.val 3 false, .val 0 false⟩ 1, .emplace ⟨.val 4 false, .val 0 false⟩ 2, .grow 6, .find ⟨.val 3 false, .val 0 true⟩,
      .emplace ⟨.val 3 false, .val 0 true⟩ 5, .find ⟨.val 3 false, .val 0 false⟩, .erase ⟨.val 3 false, .val 0 true⟩,
      .find ⟨.val 3 false, .val 0 false⟩, .find ⟨.val 4 false, .val 0 false⟩] = [some 1, some 1, none, some 2] := by decide

/-- The map of places that the removal of duplicate nodes is proved with (C25): a list of places with their vertices, which is searched
from its begin, extended at its end, and from which all entries of a place are erased. -/
def byPlace : List ((L × L) × V) → List (Op (L × L) V) → List (Option V)
  | _, [] => []
  | l, .find k :: os => l.lookup k :: byPlace l os
  | l, .emplace k v :: os => byPlace (if l.lookup k = none then l ++ [(k, v)] else l) os
  | l, .erase k :: os => byPlace (l.filter (fun x => decide (x.1 ≠ k))) os
  | l, .grow _ :: os => byPlace l os

/-- The same operation, on a point and on its place. -/
inductive Likewise : Op (Pt L) V → Op (L × L) V → Prop
  | find {k p} : place k = some p → Likewise (.find k) (.find p)
  | emplace {k p v} : place k = some p → Likewise (.emplace k v) (.emplace p v)
  | erase {k p} : place k = some p → Likewise (.erase k) (.erase p)
  | grow {n} : Likewise (.grow n) (.grow n)

theorem eq_place {k c : Pt L} {p q : L × L} (hk : place k = some p) (hc : place c = some q) : k.eq c = true ↔ p = q := by
  rw [← (points_equal k c).2, (points_equal k c).1, hk, hc]
  constructor
  · rintro ⟨v, h1, h2⟩
    rw [Option.some.inj h1, Option.some.inj h2]
  · rintro rfl
    exact ⟨p, rfl, rfl⟩

theorem lookup_cons_if (l : List ((L × L) × V)) (k q : L × L) (v : V) : ((k, v) :: l).lookup q = if q = k then some v else l.lookup q := by
  rw [List.lookup_cons]
  by_cases h : q = k
  · rw [if_pos h, h, beq_self_eq_true]
  · rw [if_neg h, beq_eq_false_iff_ne.2 h]

theorem lookup_filter_ne (l : List ((L × L) × V)) (p q : L × L) :
    (l.filter (fun x => decide (x.1 ≠ p))).lookup q = if p = q then none else l.lookup q := by
  induction l with
  | nil => split_ifs <;> rfl
  | cons a l ih =>
    obtain ⟨k, v⟩ := a
    by_cases hk : k = p
    · rw [List.filter_cons_of_neg (by simp [hk]), ih, lookup_cons_if]
      split_ifs <;> grind
    · rw [List.filter_cons_of_pos (by simp [hk]), lookup_cons_if, lookup_cons_if, ih]
      split_ifs <;> grind

theorem lookup_append_one (l : List ((L × L) × V)) (p q : L × L) (v : V) (h : l.lookup p = none) :
    (l ++ [(p, v)]).lookup q = if p = q then some v else l.lookup q := by
  induction l with
  | nil =>
    rw [List.nil_append, lookup_cons_if]
    split_ifs <;> grind
  | cons a l ih =>
    obtain ⟨k, w⟩ := a
    rw [lookup_cons_if] at h
    by_cases hpk : p = k
    · rw [if_pos hpk] at h; cases h
    · rw [if_neg hpk] at h
      rw [List.cons_append, lookup_cons_if, lookup_cons_if, ih h]
      split_ifs <;> grind

theorem ideal_places {os : List (Op (Pt L) V)} {os' : List (Op (L × L) V)} (h : List.Forall₂ Likewise os os') :
    ∀ {m : Pt L → Option V} {l : List ((L × L) × V)}, (∀ k p, place k = some p → m k = l.lookup p) →
      ideal Pt.eq m os = byPlace l os' := by
  induction h with
  | nil => intros; rfl
  | @cons o o' os os' ho _ ih =>
    intro m l hm
    cases ho with
    | find hk => rw [ideal, byPlace, hm _ _ hk, ih hm]
    | @emplace k p v hk =>
      rw [ideal, byPlace]
      refine ih ?_
      intro c q hc
      rw [hm k p hk]
      cases hl : l.lookup p with
      | some w => simpa using hm c q hc
      | none =>
        simp only [if_true]
        rw [lookup_append_one l p q v hl, ← hm c q hc]
        by_cases hq : p = q
        · rw [if_pos ((eq_place hk hc).2 hq), if_pos hq]
        · rw [if_neg (fun h => hq ((eq_place hk hc).1 h)), if_neg hq]
    | @erase k p hk =>
      rw [ideal, byPlace]
      refine ih ?_
      intro c q hc
      rw [lookup_filter_ne, ← hm c q hc]
      by_cases hq : p = q
      · rw [if_pos ((eq_place hk hc).2 hq), if_pos hq]
      · rw [if_neg (fun h => hq ((eq_place hk hc).1 h)), if_neg hq]
    | grow => rw [ideal, byPlace, ih hm]

/-- **C120**: while nodes have numbers for coordinates, the hashed map of points answers like the list of places that C25 is proved with. -/
theorem node_map_partial (H : Hashing L Nat) (n : Nat) {os : List (Op (Pt L) V)} {os' : List (Op (L × L) V)}
    (h : List.Forall₂ Likewise os os') : Table.run Pt.eq (Pt.hash H) (Table.empty (n + 1)) os = byPlace [] os' := by
  rw [(containers_answer H n).1]
  exact ideal_places h (by intros; rfl)

example : List.Forall₂ Likewise [Op.emplace (⟨.val 3 false, .val 0 false⟩ : Pt Nat) 1, .find ⟨.val 3 false, .val 0 true⟩] [.emplace (3, 0) 1, .find (3, 0)] :=
  .cons (.emplace rfl) (.cons (.find rfl) .nil)

/-- **C120 is false of the code**: what has a coordinate that is not a number is never found again, so two such nodes are never taken for one. -/
theorem not_a_number_fails (H : Hashing Nat Nat) (n : Nat) :
    Table.run Pt.eq (Pt.hash H) (Table.empty (n + 1)) [.emplace ⟨.nan, .val 0 false⟩ 1, .find ⟨.nan, .val 0 false⟩] = [none] ∧
    (⟨7, [⟨.nan, .val 0 false⟩]⟩ : Edge Nat).eq ⟨7, [⟨.nan, .val 0 false⟩]⟩ = false := by
  constructor
  · rw [(containers_answer H n).1]
    rfl
  · decide

end MM.Keys
