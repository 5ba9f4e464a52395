import Verif.Lemmas.SameData
import Verif.Props.LearnCommands

/-!
The order of the training rows and the names of the values (C90, C91).
-/

namespace FastPGM

open Spec

variable {K : Type}

section

variable [Field K] [LinearOrder K]

/-! ### C90 -/

/-- Two runs on the same machine: the same functions and random numbers, any order of the parallel loops. -/
structure SameMachine (n : Nat) (X X' : Execution K) : Prop where
  log : X'.log = X.log
  pchisq : X'.pchisq = X.pchisq
  bits : X'.bits = X.bits
  fuel : X'.fuel = X.fuel
  order : X.order0.Perm (List.range (n * (n - 1) / 2))
  order' : X'.order0.Perm (List.range (n * (n - 1) / 2))
  sched : ∀ d r l, (X.sched d r l).Perm l
  sched' : ∀ d r l, (X'.sched d r l).Perm l

omit [Field K] [LinearOrder K] in
theorem train_cols (train : List (List Str)) (n : Nat) :
    Columns (fun v => (firstSeen (column train v)).length) n (trainColumns train n) (train.map (rowAssignment train)) := by
  have e : trainColumns train n = ((List.range n).map (fun j => (column train j).map (fun s => ((firstSeen (column train j)).idxOf s : Int)))).map
      (fun c => c.map Int.toNat) := by
    unfold trainColumns
    rw [List.map_map]
    refine List.map_congr_left (fun j _ => ?_)
    simp [codeIn]
  rw [e]
  exact train_columns (fun _ _ => rfl)

/-- The group size is 1, or at most 8 and tables without degrees of freedom are judged independent by the chi-square function (C26). -/
def SafeGroups (log : K → K) (pchisq : K → Nat → Option K) (alpha : K) (n g : Nat) (train : List (List Str)) : Prop :=
  g = 1 ∨ 0 < g ∧ g ≤ 8 ∧ ∀ x y z, x < y → y < n → (∀ v ∈ z, v < n) → z ≠ [] →
    degrees (fun v => (firstSeen (column train v)).length) (train.map (rowAssignment train)) x y z = 0 →
    ∃ q, pchisq (gSquare log (fun v => (firstSeen (column train v)).length) (train.map (rowAssignment train)) x y z) 0 = some q ∧ alpha < 1 - q

theorem train_answers {log : K → K} {pchisq : K → Nat → Option K} {alpha : K} {n g : Nat} {train : List (List Str)}
    (hg : SafeGroups log pchisq alpha n g train) :
    Answers (ciTest log pchisq alpha (trainDims train n) (trainColumns train n) train.length)
      (verdicts log pchisq alpha (fun v => (firstSeen (column train v)).length) (train.map (rowAssignment train))) n g := by
  have h := answers_gsquare log pchisq alpha (train_cols train n) (dims := trainDims train n) (g := g) (by
      intro v hv
      simp [trainDims, List.getElem?_range hv]) (by
      rcases hg with h | h
      · exact Or.inl (by omega)
      · exact Or.inr h.2)
  rwa [List.length_map] at h

/-- C90.  Two training tables with the same contents up to the order of the rows and the names of the values give the same network: the same
edges in the same order with the same directions (or the same fault), whether or not the edges left undirected are directed and ROOT is added,
and whatever the orders of the parallel loops in the two runs. -/
theorem C90_structure (log : K → K) (pchisq : K → Nat → Option K) (alpha : K) {n : Nat} {σ : Nat → Str → Str} {train train' : List (List Str)}
    (hren : Renamed n σ train train') :
    ∃ F, ∀ (X X' : Execution K) (g g' : Nat) (names names' : List Str) (file file' : Str) (dag addRoot : Bool), SameMachine n X X' → X.log = log →
      X.pchisq = pchisq → F ≤ X.fuel → SafeGroups log pchisq alpha n g train → SafeGroups log pchisq alpha n g' train' →
      TrainFile n names train file → TrainFile n names' train' file' →
      (do structLearnFull X' alpha g' dag addRoot (← loadCSVTraining file' true 0)) =
        (do structLearnFull X alpha g dag addRoot (← loadCSVTraining file true 0)) := by
  obtain ⟨F, v, h⟩ := learnSkeleton_eq (verdicts log pchisq alpha (fun v => (firstSeen (column train v)).length) (train.map (rowAssignment train))) n 1000
  refine ⟨F, ?_⟩
  rintro X X' g g' names names' file file' dag addRoot ⟨m1, m2, m3, m4, m5, m6, m7, m8⟩ rfl rfl hF hg hg' hf hf'
  obtain ⟨D, hD, hr⟩ := readsTrain hf
  obtain ⟨D', hD', hr'⟩ := readsTrain hf'
  have hpos : 0 < g := by rcases hg with h | h <;> omega
  have hpos' : 0 < g' := by rcases hg' with h | h <;> omega
  obtain ⟨k, h1, h2, -⟩ := h _ g 128 X.order0 X.sched X.fuel (train_answers hg) hpos (by omega) m5 m7 hF
  have ha := train_answers hg'
  have hcard : ∀ j < n, (firstSeen (column train' j)).length = (firstSeen (column train j)).length := fun j hj => hren.values hj
  have ha' : Answers (ciTest X.log X.pchisq alpha (trainDims train' n) (trainColumns train' n) train'.length)
      (verdicts X.log X.pchisq alpha (fun v => (firstSeen (column train v)).length) (train.map (rowAssignment train))) n g' := by
    refine ha.congr ?_
    intro x y z hv
    rw [← verdicts_renumber X.log X.pchisq alpha (renumbering hren) (sameRows hren) hv]
    exact verdicts_card X.log X.pchisq alpha (fun v hv' => (hcard v (hv v hv')).symm)
  obtain ⟨k', h1', h2', -⟩ := h _ g' 128 X'.order0 X'.sched X'.fuel ha' hpos' (by omega) m6 m8 (by rw [m4]; exact hF)
  have hv : k'.view = k.view := by rw [h2, h2']
  have hedges : k'.edges.map (fun e => (e.x, e.y)) = k.edges.map (fun e => (e.x, e.y)) := congrArg Prod.fst hv
  have hadj : k'.adj = k.adj := congrArg (fun p => p.2.1) hv
  have hsep : k'.sep = k.sep := congrArg (fun p => p.2.2) hv
  have hnet : ∀ dims, skeletonNet dims k' = skeletonNet dims k := by
    intro dims
    unfold skeletonNet
    have := congrArg (List.map (fun p : Nat × Nat => mkUndirected p.1 p.2)) hedges
    rw [List.map_map, List.map_map] at this
    exact congrArg (fun es => { Net.empty dims with edges := es }) this
  have hlen : k'.edges.length = k.edges.length := by simpa using congrArg List.length hedges
  rw [hD, hD', ok_bind, ok_bind]
  unfold structLearnFull
  rw [hr.dims, hr'.dims, ok_bind, ok_bind, hr.vars, hr'.vars, hr.rows, hr'.rows, hr.columns, hr'.columns, m1, m2, h1, h1', ok_bind, ok_bind, hlen]
  unfold orientPhase
  rw [hnet, hadj, hsep, m3, m4, hren.dims]

/-- C90.  The structure learning command (`BNSL_PCStable`) then writes the same structure file and prints the same distance. -/
theorem C90_command (log : K → K) (pchisq : K → Nat → Option K) (alpha : K) {n : Nat} {σ : Nat → Str → Str} {train train' : List (List Str)}
    (hren : Renamed n σ train train') :
    ∃ F, ∀ (X X' : Execution K) (nums : Numbers K) (g g' : Nat) (names : List Str) (file file' : Str) (ref : Option Str) (save : Bool),
      SameMachine n X X' → X.log = log → X.pchisq = pchisq → F ≤ X.fuel → SafeGroups log pchisq alpha n g train →
      SafeGroups log pchisq alpha n g' train' → TrainFile n names train file → TrainFile n names train' file' →
      bnsl X' nums alpha g' ref file' save = bnsl X nums alpha g ref file save := by
  obtain ⟨F, h⟩ := C90_structure log pchisq alpha hren
  refine ⟨F, ?_⟩
  intro X X' nums g g' names file file' ref save hm h1 h2 h3 hg hg' hf hf'
  have hs := h X X' g g' names names file file' false false hm h1 h2 h3 hg hg' hf hf'
  obtain ⟨D, hD, hr⟩ := readsTrain hf
  obtain ⟨D', hD', hr'⟩ := readsTrain hf'
  rw [hD, hD', ok_bind, ok_bind] at hs
  unfold bnsl
  rw [hD, hD', ok_bind, ok_bind, hs, hr.names, hr'.names]

omit [LinearOrder K] in
/-- C90.  The smoothed frequencies are the same: the number learned for a text given the texts of the parents is the number learned for the
renamed texts. -/
theorem C90_parameters {n : Nat} {σ : Nat → Str → Str} {train train' : List (List Str)} (hren : Renamed n σ train train') {i : Nat} {ps : List Nat}
    (hv : ∀ v ∈ i :: ps, v < n) (text : Nat → Str) (ht : ∀ v ∈ i :: ps, text v ∈ column train v) :
    (smoothedFrequency (train'.map (rowAssignment train')) (fun v => (firstSeen (column train' v)).length) i ps
        ((i :: ps).map (fun v => codeIn train' v (σ v (text v)))) : K) =
      smoothedFrequency (train.map (rowAssignment train)) (fun v => (firstSeen (column train v)).length) i ps
        ((i :: ps).map (fun v => codeIn train v (text v))) := by
  have hof : ∀ (f : Nat → Nat), ∀ v ∈ i :: ps, ofConfig (i :: ps) ((i :: ps).map f) v = f v := by
    intro f v hv
    unfold ofConfig
    have hlt := List.idxOf_lt_length_iff.2 hv
    rw [List.getD_eq_getElem?_getD, List.getElem?_map, List.getElem?_eq_getElem hlt, List.getElem_idxOf]
    rfl
  have key : ∀ vs : List Nat, (∀ v ∈ vs, v ∈ i :: ps) →
      countSame (train'.map (rowAssignment train')) vs (ofConfig (i :: ps) ((i :: ps).map (fun v => codeIn train' v (σ v (text v))))) =
      countSame (train.map (rowAssignment train)) vs (ofConfig (i :: ps) ((i :: ps).map (fun v => codeIn train v (text v)))) := by
    intro vs hvs
    rw [← countSame_renumber (renumbering hren) (sameRows hren) (fun v h => hv v (hvs v h))]
    apply countSame_depends
    intro v h
    have hvi := hvs v h
    show _ = recode σ train train' v _
    rw [hof _ v hvi, hof _ v hvi, recode_code (ht v hvi)]
  unfold smoothedFrequency
  rw [key _ (fun v h => h), key ps (fun v h => by simp [h])]
  simp only [hren.values (hv i (by simp))]

/-! ### C91 -/

/-- C91.  Classification does not depend on the names of the values: if the texts of both files are replaced consistently, the rows staying in
their order, the command gives the same accuracy (or the same fault). -/
theorem C91_names (X : Execution K) (alpha : K) (g : Nat) {n : Nat} {σ : Nat → Str → Str} {names names' tnames tnames' : List Str}
    {train train' test test' : List (List Str)} {file file' tfile tfile' : Str} (hf : TwoFiles n names train file tnames test tfile)
    (hf' : TwoFiles n names' train' file' tnames' test' tfile') (htrain : Rewritten n σ train train') (htest : Rewritten n σ test test')
    (hσ : Faithful n σ train test) : classify X alpha g file' tfile' = classify X alpha g file tfile := by
  have reads : ∀ {names tnames : List Str} {train test : List (List Str)} {file tfile : Str}, TwoFiles n names train file tnames test tfile →
      ∃ D T, loadCSVTraining file true 0 = .ok D ∧ D.forTesting.loadCSVTesting tfile true 0 = .ok T ∧ ReadsTrain n names train D ∧
        T.classVar = 0 ∧ T.natRows = test.map (testCells train n) := by
    intro names tnames train test file tfile hf
    obtain ⟨hn, f1, f2, f3, f4, f5, f6, f7, f8, f9⟩ := hf
    obtain ⟨D, hD, d1, d2, d3, d4, d5, d6, d7, d8, d9, d10⟩ := C50_encode hn f1 f2 f3 f4 f5 0
    obtain ⟨D', hD', hr⟩ := readsTrain ⟨hn, f1, f2, f3, f4, f5⟩
    rw [hD] at hD'
    cases hD'
    have h1' : D.forTesting.numVars = n := d1
    have hload := C51_encode (D := D.forTesting) (by rw [h1']; exact hn) (by rw [h1']; exact Nat.le_of_eq d5.symm) f6 (by rw [h1']; exact f7)
      (by rw [h1']; exact f8) f9 0
    refine ⟨D, _, hD, hload, hr, rfl, ?_⟩
    unfold Dataset.natRows
    rw [h1']
    exact test_rows d6 test
  obtain ⟨D, T, r1, r2, r3, r4, r5⟩ := reads hf
  obtain ⟨D', T', r1', r2', r3', r4', r5'⟩ := reads hf'
  have hlen : train'.length = train.length := by
    have := congrArg List.length htrain
    simpa using this
  have hstruct : structLearn X alpha g true true D' = structLearn X alpha g true true D := by
    unfold structLearn structLearnFull
    rw [r3.dims, r3'.dims, ok_bind, ok_bind, r3.vars, r3'.vars, r3.rows, r3'.rows, r3.columns, r3'.columns, htrain.trainDims hσ,
      htrain.trainColumns hσ, hlen]
  unfold classify
  rw [r1, r1', ok_bind, ok_bind, r2, r2', ok_bind, ok_bind, hstruct, r3.columns, r3'.columns, r3.vars, r3'.vars, r3.rows, r3'.rows, r4, r4',
    r5, r5', htrain.trainColumns hσ, hlen, htrain.testCells hσ htest]

end

/-! ### The order of the rows and classification -/

/-- A training table in which the two classes are equally frequent, whatever the other column says. -/
def tiedRows : List (List Str) := [["y", "a"], ["n", "a"], ["y", "b"], ["n", "b"]].map (fun r => r.map lit)

/-- The same rows, the first two exchanged. -/
def tiedRows' : List (List Str) := [["n", "a"], ["y", "a"], ["y", "b"], ["n", "b"]].map (fun r => r.map lit)

def tiedTest : List (List Str) := List.replicate 20 (["y", "a"].map lit)

def tiedNames : List Str := ["c", "f"].map lit

def tiedFile (rows : List (List Str)) : Str := textOf (csvLine tiedNames :: rows.map csvLine)

/-- C91, limit: the order of the training rows matters for classification.  The predicted class is the first of the most probable ones in the
order of the numbers of the values, and the values are numbered by their first appearance.  Here the two classes are equally probable, and
exchanging the first two rows of the training file changes the printed accuracy from 1 to 0. -/
theorem C91_row_order : tiedRows'.Perm tiedRows ∧
    classify (ratExecution 1 (fun _ j => j / 2 % 2)) (1 / 20) 1 (tiedFile tiedRows) (tiedFile tiedTest) = .ok 1 ∧
    classify (ratExecution 1 (fun _ j => j / 2 % 2)) (1 / 20) 1 (tiedFile tiedRows') (tiedFile tiedTest) = .ok 0 :=
  ⟨List.Perm.swap _ _ _, by decide +kernel, by decide +kernel⟩

/-! ### Concrete cases -/

/-- The rows of `weatherRows` in another order, with other names for the values; "dry" has become "wet". -/
def weatherRows' : List (List Str) :=
  [["1", "wet"], ["0", "rain"], ["0", "rain"], ["1", "wet"], ["0", "rain"], ["1", "wet"]].map (fun r => r.map lit)

def weatherRenaming (j : Nat) (s : Str) : Str :=
  if j = 0 then (if s = lit "yes" then lit "0" else lit "1") else (if s = lit "wet" then lit "rain" else lit "wet")

theorem weather_renamed : Renamed 2 weatherRenaming weatherRows weatherRows' where
  injective := by decide +kernel
  rows := by decide +kernel

-- the hypotheses of C90 hold, and the learned graph has an edge
example : SameMachine 2 (ratExecution 1 (fun _ j => j % 2)) (ratExecution 1 (fun _ j => j % 2)) ∧
    SafeGroups (ratExecution 1 (fun _ j => j % 2)).log (ratExecution 1 (fun _ j => j % 2)).pchisq (1 / 20) 2 1 weatherRows ∧
    SafeGroups (ratExecution 1 (fun _ j => j % 2)).log (ratExecution 1 (fun _ j => j % 2)).pchisq (1 / 20) 2 1 weatherRows' ∧
    TrainFile 2 weatherNames weatherRows weatherFile ∧ TrainFile 2 weatherNames weatherRows' (textOf (csvLine weatherNames :: weatherRows'.map csvLine)) :=
  ⟨⟨rfl, rfl, rfl, rfl, List.Perm.refl _, List.Perm.refl _, fun _ _ _ => List.Perm.refl _, fun _ _ _ => List.Perm.refl _⟩, Or.inl rfl, Or.inl rfl,
    weather_file, ⟨by omega, CsvFile.newline, by unfold CleanRow CleanCell; decide, by unfold CleanRow CleanCell; decide, by decide, by decide⟩⟩

example : bnsl (ratExecution 1 (fun _ j => j % 2)) exampleNumbers (1 / 20) 1 none (textOf (csvLine weatherNames :: weatherRows'.map csvLine)) true =
    .ok (some { structFile := some (lit "number of nodes = 2, number of edges = 1\n0: Rain/v0 -- Wet/v1\n"), shd := none, paramFile := none }) := by
  decide +kernel

-- texts of the columns, as C90_parameters wants them
example : ∀ v ∈ [1, 0], (fun v => if v = 0 then lit "yes" else lit "dry") v ∈ column weatherRows v := by decide +kernel

-- the hypotheses of C91
def tiedRenaming (_ : Nat) (s : Str) : Str := 120 :: s

example : TwoFiles 2 tiedNames tiedRows (tiedFile tiedRows) tiedNames tiedTest (tiedFile tiedTest) ∧
    Rewritten 2 tiedRenaming tiedRows (tiedRows.map (fun r => r.map (fun s => 120 :: s))) ∧
    Rewritten 2 tiedRenaming tiedTest (tiedTest.map (fun r => r.map (fun s => 120 :: s))) ∧
    Faithful 2 tiedRenaming tiedRows tiedTest := by
  refine ⟨⟨by omega, CsvFile.newline, by unfold CleanRow CleanCell; decide, by unfold CleanRow CleanCell; decide, by decide, by decide,
    CsvFile.newline, by unfold CleanRow CleanCell; decide, by unfold CleanRow CleanCell; decide +kernel, by decide⟩,
    by unfold Rewritten; decide +kernel, by unfold Rewritten; decide +kernel, by unfold Faithful; decide +kernel⟩

end FastPGM
