import Verif.Model.Settings
import Mathlib.Data.List.Nodup

/-!
# Lemmas about the way of an option to its setting
-/

set_option autoImplicit false
set_option linter.unusedSectionVars false

namespace MM.Settings

/-- The values written for a name, in order. -/
def given (src : Source) (n : String) : List String := (src.filter fun p => p.1 = n).map Prod.snd

@[simp] theorem given_nil (n : String) : given [] n = [] := rfl

theorem given_cons (p : String × String) (src : Source) (n : String) :
    given (p :: src) n = if p.1 = n then p.2 :: given src n else given src n := by
  unfold given
  by_cases h : p.1 = n <;> simp [h]

theorem find_of_mem {ds : List Described} (hn : (ds.map Described.name).Nodup) {d : Described} (hd : d ∈ ds) :
    (ds.find? fun x => x.name = d.name) = some d := by
  induction ds with
  | nil => cases hd
  | cons a as ih =>
    rw [List.map_cons, List.nodup_cons] at hn
    rcases List.mem_cons.mp hd with rfl | h
    · simp
    · have : a.name ≠ d.name := fun e => hn.1 (e ▸ List.mem_map_of_mem h)
      rw [List.find?_cons_of_neg (by simpa using this)]
      exact ih hn.2 h

theorem filter_of_mem {ds : List Described} (hn : (ds.map Described.name).Nodup) {d : Described} (hd : d ∈ ds) :
    (ds.filter fun x => x.name = d.name) = [d] := by
  induction ds with
  | nil => cases hd
  | cons a as ih =>
    rw [List.map_cons, List.nodup_cons] at hn
    rcases List.mem_cons.mp hd with rfl | h
    · rw [List.filter_cons_of_pos (by simp), List.filter_eq_nil_iff.mpr]
      intro x hx
      simp only [decide_eq_true_eq]
      exact fun e => hn.1 (e ▸ List.mem_map_of_mem hx)
    · have : a.name ≠ d.name := fun e => hn.1 (e ▸ List.mem_map_of_mem h)
      rw [List.filter_cons_of_neg (by simpa using this)]
      exact ih hn.2 h

theorem resolve_full {ds : List Described} (hn : (ds.map Described.name).Nodup) {d : Described} (hd : d ∈ ds) :
    resolve ds d.name = .ok (some d) := by
  rw [resolve, filter_of_mem hn hd]

theorem parseCli_full {ds : List Described} (hn : (ds.map Described.name).Nodup) (allow : Bool) :
    ∀ src : Source, (∀ p ∈ src, p.1 ∈ ds.map Described.name) → parseCli ds allow src = .ok src
  | [], _ => rfl
  | p :: ps, h => by
    obtain ⟨d, hd, e⟩ := List.mem_map.mp (h p (List.mem_cons_self ..))
    rw [parseCli, ← e, resolve_full hn hd, parseCli_full hn allow ps fun q hq => h q (List.mem_cons_of_mem _ hq)]
    simp [Outcome.map_ok, e]

theorem parseFile_same {ds : List Described} :
    ∀ (src r : Source), parseFile ds false src = .ok r → r = src ∧ ∀ p ∈ src, p.1 ∈ ds.map Described.name
  | [], r, h => by
    simp only [parseFile, Outcome.ok.injEq] at h
    exact ⟨h.symm, by simp⟩
  | p :: ps, r, h => by
    rw [parseFile] at h
    split at h
    · rename_i hp
      cases hq : parseFile ds false ps with
      | ok q =>
        rw [hq, Outcome.map_ok] at h
        obtain ⟨e, hm⟩ := parseFile_same ps q hq
        cases h
        refine ⟨by rw [e], ?_⟩
        intro x hx
        rcases List.mem_cons.mp hx with rfl | hx
        · simpa using hp
        · exact hm x hx
      | throws => rw [hq] at h; cases h
      | ub => rw [hq] at h; cases h
    · simp at h

theorem put_get {d : Described} {v : String} {m m' : Vm} (h : put d v m = .ok m') :
    (∀ n, n ≠ d.name → m' n = m n) ∧
    ((∀ e, m d.name = some e → e.defaulted = true) → m' d.name = some ⟨[v], false⟩) ∧
    (∀ vs, m d.name = some ⟨vs, false⟩ → m' d.name = some ⟨vs ++ [v], false⟩ ∧ d.kind = .many) := by
  unfold put at h
  cases hm : m d.name with
  | none =>
    simp only [hm, Outcome.ok.injEq] at h
    subst h
    exact ⟨fun n hn => by simp [hn], fun _ => by simp, fun vs e => by cases e⟩
  | some e =>
    simp only [hm] at h
    split at h
    · rename_i he
      simp only [Outcome.ok.injEq] at h
      subst h
      refine ⟨fun n hn => by simp [hn], fun _ => by simp, fun vs e' => ?_⟩
      cases e'
      cases he
    · rename_i he
      split at h
      · rename_i hk
        simp only [Outcome.ok.injEq] at h
        subst h
        refine ⟨fun n hn => by simp [hn], fun a => absurd (a e rfl) he, fun vs e' => ?_⟩
        cases e'
        exact ⟨by simp, hk⟩
      · cases h

theorem putAll_get {ds : List Described} {fin : List String} :
    ∀ (src : Source) (m m' : Vm), putAll ds fin src m = .ok m' → ∀ n,
      ((n ∈ fin ∨ given src n = []) → m' n = m n) ∧
      (n ∉ fin → given src n ≠ [] → (∀ e, m n = some e → e.defaulted = true) → m' n = some ⟨given src n, false⟩) ∧
      (n ∉ fin → ∀ vs, m n = some ⟨vs, false⟩ → m' n = some ⟨vs ++ given src n, false⟩)
  | [], m, m', h, n => by
    simp only [putAll, Outcome.ok.injEq] at h
    subst h
    exact ⟨fun _ => rfl, fun _ e => absurd rfl e, fun _ vs e => by simpa using e⟩
  | p :: ps, m, m', h, n => by
    rw [putAll] at h
    split at h
    · rename_i hp
      obtain ⟨h1, h2, h3⟩ := putAll_get ps m m' h n
      rw [given_cons]
      by_cases e : p.1 = n
      · subst e
        exact ⟨fun _ => h1 (.inl hp), fun a => absurd hp a, fun a => absurd hp a⟩
      · rw [if_neg e]
        exact ⟨h1, h2, h3⟩
    · rename_i hp
      split at h
      · cases h
      · rename_i d hd
        have hdn : d.name = p.1 := by simpa using List.find?_some hd
        cases hq : put d p.2 m with
        | throws => rw [hq] at h; cases h
        | ub => rw [hq] at h; cases h
        | ok q =>
          rw [hq, Outcome.bind_ok] at h
          obtain ⟨g1, g2, g3⟩ := put_get hq
          obtain ⟨h1, h2, h3⟩ := putAll_get ps q m' h n
          rw [given_cons]
          by_cases e : p.1 = n
          · subst e
            rw [if_pos rfl]
            rw [hdn] at g2 g3
            refine ⟨?_, ?_, ?_⟩
            · rintro (a | a)
              · exact absurd a hp
              · cases a
            · intro _ _ a
              simpa using h3 hp _ (g2 a)
            · intro _ vs a
              simpa using h3 hp _ (g3 vs a).1
          · rw [if_neg e]
            have hne : n ≠ d.name := fun x => e (by rw [← hdn, ← x])
            rw [g1 n hne] at h1 h2 h3
            exact ⟨h1, h2, h3⟩

theorem putDefaults_get {ds : List Described} (hn : (ds.map Described.name).Nodup) {d : Described} (hd : d ∈ ds) (m : Vm) :
    putDefaults ds m d.name = match m d.name with
      | some e => some e
      | none => d.dflt.map fun v => ⟨v, true⟩ := by
  rw [putDefaults, find_of_mem hn hd]
  cases m d.name <;> rfl

/-- The file read: the one named on the command line, else `options.conf` if there is one. -/
def fileOf (cli : Source) (disk : String → Option Source) : Source := (disk ((given cli "config").headD "options.conf")).getD []

theorem storeCli_get {ds : List Described} (hn : (ds.map Described.name).Nodup) {cli : Source}
    (hc : ∀ p ∈ cli, p.1 ∈ ds.map Described.name) {s : Source × Vm} (h : storeCli ds false cli = .ok s) :
    s.1 = cli ∧ ∀ d ∈ ds, s.2 d.name =
      if given cli d.name ≠ [] then some ⟨given cli d.name, false⟩ else d.dflt.map fun v => ⟨v, true⟩ := by
  rw [storeCli, parseCli_full hn false cli hc, Outcome.bind_ok] at h
  cases hp : putAll ds [] cli fun _ => none with
  | throws => rw [hp] at h; cases h
  | ub => rw [hp] at h; cases h
  | ok m =>
    rw [hp, Outcome.map_ok] at h
    cases h
    refine ⟨rfl, fun d hd => ?_⟩
    obtain ⟨h1, h2, _⟩ := putAll_get cli _ m hp d.name
    show putDefaults ds m d.name = _
    rw [putDefaults_get hn hd]
    by_cases hg : given cli d.name = []
    · rw [h1 (.inr hg)]
      simp [hg]
    · rw [h2 (by simp) hg (by simp)]
      simp [hg]

theorem load_get {ds : List Described} (hn : (ds.map Described.name).Nodup) {c : Described} (hcm : c ∈ ds)
    (hcn : c.name = "config") (hcd : c.dflt = some ["options.conf"]) {cli : Source}
    (hc : ∀ p ∈ cli, p.1 ∈ ds.map Described.name) {disk : String → Option Source} {m : Vm}
    (h : load ds false cli disk = .ok m) :
    ∀ d ∈ ds, m d.name =
      if given cli d.name ≠ [] then some ⟨given cli d.name, false⟩
      else if given (fileOf cli disk) d.name ≠ [] then some ⟨given (fileOf cli disk) d.name, false⟩
      else d.dflt.map fun v => ⟨v, true⟩ := by
  rw [load] at h
  cases hs : storeCli ds false cli with
  | throws => rw [hs] at h; cases h
  | ub => rw [hs] at h; cases h
  | ok s =>
    rw [hs, Outcome.bind_ok] at h
    obtain ⟨s1, s2⟩ := storeCli_get hn hc hs
    have hcv := s2 c hcm
    rw [hcn, hcd] at hcv
    obtain ⟨df, hcv'⟩ : ∃ df, s.2 "config" = some ⟨if given cli "config" ≠ [] then given cli "config" else ["options.conf"], df⟩ := by
      rw [hcv]
      by_cases hg : given cli "config" = []
      · exact ⟨true, by simp [hg]⟩
      · exact ⟨false, by simp [hg]⟩
    have hpath : (if given cli "config" ≠ [] then given cli "config" else ["options.conf"]).headD "" =
        (given cli "config").headD "options.conf" := by
      cases given cli "config" <;> simp
    rw [storeFile, hcv'] at h
    simp only [hpath] at h
    intro d hd
    cases hf : disk ((given cli "config").headD "options.conf") with
    | none =>
      have hfile : fileOf cli disk = [] := by rw [fileOf, hf]; rfl
      rw [hf] at h
      simp only at h
      split at h
      · cases h
        rw [s2 d hd, hfile]
        simp
      · cases h
    | some f =>
      have hfile : fileOf cli disk = f := by rw [fileOf, hf]; rfl
      rw [hf] at h
      simp only at h
      cases hpf : parseFile ds false f with
      | throws => rw [hpf] at h; cases h
      | ub => rw [hpf] at h; cases h
      | ok r =>
        obtain ⟨rfl, _⟩ := parseFile_same f r hpf
        rw [hpf, Outcome.bind_ok, s1] at h
        cases hq : putAll ds (cli.map Prod.fst) r s.2 with
        | throws => rw [hq] at h; cases h
        | ub => rw [hq] at h; cases h
        | ok q =>
          rw [hq, Outcome.map_ok] at h
          cases h
          obtain ⟨h1, h2, _⟩ := putAll_get r _ q hq d.name
          rw [putDefaults_get hn hd, hfile]
          have hin : d.name ∈ cli.map Prod.fst ↔ given cli d.name ≠ [] := by
            simp only [given, ne_eq, List.map_eq_nil_iff, List.filter_eq_nil_iff, decide_eq_true_eq, not_forall, List.mem_map,
              not_not, exists_prop]
          by_cases hg : given cli d.name = []
          · have hnin : d.name ∉ cli.map Prod.fst := fun a => (hin.mp a) hg
            have hs2 := s2 d hd
            rw [hg] at hs2
            simp only [ne_eq, not_true_eq_false, if_false] at hs2
            rw [hg]
            by_cases hr : given r d.name = []
            · rw [h1 (.inr hr), hs2, hr]
              cases d.dflt <;> simp
            · rw [h2 hnin hr]
              · simp [hr]
              · intro e he
                rw [hs2] at he
                cases hdd : d.dflt with
                | none => rw [hdd] at he; cases he
                | some v => rw [hdd] at he; cases he; rfl
          · rw [h1 (.inl (hin.mpr hg)), s2 d hd]
            simp [hg]

theorem foldl_update_get {α : Type} (ds : List Described) (g : Described → Option α) (hn : (ds.map Described.field).Nodup)
    {d : Described} (hd : d ∈ ds) (x : String × String → α) :
    (ds.foldl (fun x d => match g d with
      | some e => Function.update x d.field e
      | none => x) x) d.field = (g d).getD (x d.field) := by
  have keep : ∀ (as : List Described) (y : String × String → α) (f : String × String), f ∉ as.map Described.field →
      (as.foldl (fun x d => match g d with
        | some e => Function.update x d.field e
        | none => x) y) f = y f := by
    intro as
    induction as with
    | nil => intros; rfl
    | cons a as ih =>
      intro y f hf
      rw [List.map_cons, List.mem_cons, not_or] at hf
      rw [List.foldl_cons, ih _ _ hf.2]
      cases g a with
      | none => rfl
      | some e => simp [hf.1]
  induction ds generalizing x with
  | nil => cases hd
  | cons a as ih =>
    rw [List.map_cons, List.nodup_cons] at hn
    rw [List.foldl_cons]
    rcases List.mem_cons.mp hd with rfl | h
    · rw [keep as _ _ hn.1]
      cases g d <;> simp
    · rw [ih hn.2 h]
      have : d.field ≠ a.field := fun e => hn.1 (e ▸ List.mem_map_of_mem h)
      cases g a <;> simp [this]

theorem notify_get {ds : List Described} (hf : (ds.map Described.field).Nodup) {m : Vm} {init x : Data}
    (h : notify ds m init = .ok x) {d : Described} (hd : d ∈ ds) :
    x d.field = match m d.name with
      | some e => e.values
      | none => init d.field := by
  rw [notify] at h
  split at h
  · cases h
  · cases h
    have := foldl_update_get ds (fun d => (m d.name).map Entry.values) hf hd init
    refine (congrFun (congrArg (fun f => ds.foldl f init) ?_) d.field).trans (this.trans ?_)
    · funext x d
      cases m d.name <;> rfl
    · cases m d.name <;> rfl

theorem assign_get {as : List Assign} (hn : (as.map Prod.fst).Nodup) {a : Assign} (ha : a ∈ as) (x : Data)
    (init : String → List String) : assign as x init a.1 = x a.2 := by
  have keep : ∀ (bs : List Assign) (y : String → List String) (n : String), n ∉ bs.map Prod.fst → assign bs x y n = y n := by
    intro bs
    induction bs with
    | nil => intros; rfl
    | cons b bs ih =>
      intro y n hb
      rw [List.map_cons, List.mem_cons, not_or] at hb
      show assign bs x (Function.update y b.1 (x b.2)) n = y n
      rw [ih _ _ hb.2]
      simp [hb.1]
  induction as generalizing init with
  | nil => cases ha
  | cons b bs ih =>
    rw [List.map_cons, List.nodup_cons] at hn
    show assign bs x (Function.update init b.1 (x b.2)) a.1 = x a.2
    rcases List.mem_cons.mp ha with rfl | h
    · rw [keep bs _ _ hn.1]
      simp
    · exact ih hn.2 h _

end MM.Settings
