import Verif.Lemmas.Program

/-!
The commands on the file system agree with the commands on the texts of the files.
-/

namespace FastPGM

open Spec

variable {K ω α : Type}

theorem compareRef_eq {w : World} {nums : Numbers K} {ref : Str} {text : Option Str} (h : RefText w ref text) (N : Net) :
    compareRef nums ref N w = (ended (reportSHD nums text N), w) := by
  unfold compareRef
  rcases h with ⟨rfl, rfl⟩ | ⟨hr, ht, hw⟩
  · rw [if_pos rfl]; rfl
  · rw [if_neg hr]
    obtain ⟨t, rfl⟩ := Option.ne_none_iff_exists'.1 ht
    rw [prog_bind, readFile_some hw]
    unfold reportSHD
    simp only
    rw [prog_bind]
    rcases h1 : loadBIF nums.stod nums.toCount nums.rounds t with f | F
    · rfl
    · rw [pure_ok]
      simp only [ok_bind]
      cases F with
      | none => rfl
      | some F =>
        simp only
        rw [prog_bind]
        rcases h2 : getSHD F.net N F.numEdges with f | d
        · rfl
        · rfl

variable [Field K] [LinearOrder K]

theorem runBNSL_eq {w : World} {X : Execution K} {nums : Numbers K} {alpha : K} {g : Nat} {ref train text : Str} {rtext : Option Str} {save : Bool}
    (ht : w.files train = some text) (hr : RefText w ref rtext)
    (hs : save = true → w.writable (train ++ lit "_struct") = true ∧ ref ≠ train ++ lit "_struct") :
    (runBNSL X nums alpha g ref train save w).1 = (ended (bnsl X nums alpha g rtext text save)).map LearnOutput.shd ∧
      ∀ out, bnsl X nums alpha g rtext text save = .ok (some out) →
        (runBNSL X nums alpha g ref train save w).2 = w.putIf (train ++ lit "_struct") out.structFile ∧ out.paramFile = none := by
  unfold runBNSL bnsl
  rw [prog_bind, readFile_some ht]
  simp only
  rw [prog_bind]
  rcases h1 : loadCSVTraining text true 0 with f | D
  · exact ⟨rfl, fun _ h => by cases h⟩
  rw [pure_ok]
  simp only [ok_bind]
  rw [prog_bind]
  rcases h2 : structLearnFull X alpha g false false D with f | ⟨N, m⟩
  · exact ⟨rfl, fun _ h => by cases h⟩
  rw [pure_ok]
  simp only [ok_bind]
  have tail : ∀ (w' : World) (sf : Option Str), RefText w' ref rtext → w' = w.putIf (train ++ lit "_struct") sf →
      (compareRef nums ref N w').1 = (ended (do
        match ← reportSHD nums rtext N with
        | none => return none
        | some shd => return some ({ structFile := sf, shd := shd, paramFile := none } : LearnOutput))).map LearnOutput.shd ∧
      ∀ out, (do
        match ← reportSHD nums rtext N with
        | none => return none
        | some shd => return some ({ structFile := sf, shd := shd, paramFile := none } : LearnOutput)) = (.ok (some out) : Except Fault _) →
        (compareRef nums ref N w').2 = w.putIf (train ++ lit "_struct") out.structFile ∧ out.paramFile = none := by
    intro w' sf hr' hw'
    rw [compareRef_eq hr']
    rcases h3 : reportSHD nums rtext N with f | _ | d
    · exact ⟨rfl, fun _ h => by cases h⟩
    · exact ⟨rfl, fun _ h => by cases h⟩
    · refine ⟨rfl, fun out h => ?_⟩
      simp only [ok_bind, pure_eq_ok] at h
      cases h
      exact ⟨hw', rfl⟩
  cases save with
  | false => exact tail w none hr rfl
  | true =>
    simp only [if_true]
    obtain ⟨hwr, hne⟩ := hs rfl
    rw [prog_bind]
    rcases h3 : saveStructure (assignNames D) m N with f | t
    · rw [saveFile_error hwr]
      exact ⟨rfl, fun _ h => by cases h⟩
    · rw [saveFile_ok hwr]
      simp only [ok_bind, pure_eq_ok]
      refine tail (w.put _ t) (some t) ?_ rfl
      rcases hr with h | ⟨a, b, c⟩
      · exact Or.inl h
      · exact Or.inr ⟨a, b, by rw [put_other hne, c]⟩

/-- Saving a file or not, followed by the rest of the program. -/
theorem save_then {β γ : Type} {w : World} {save : Bool} {path : Str} {text : Except Fault Str} {rest : Prog β} {k : Option Str → Except Fault (Option γ)}
    {get : γ → β} {after : γ → World} (hw : save = true → w.writable path = true)
    (hrest : ∀ sf, (save = true → ∃ t, text = .ok t ∧ sf = some t) → (save = false → sf = none) →
      (rest (w.putIf path sf)).1 = (ended (k sf)).map get ∧ ∀ out, k sf = .ok (some out) → (rest (w.putIf path sf)).2 = after out) :
    ((if save then (saveFile path text >>= fun _ => rest) else rest : Prog β) w).1 =
        (ended ((if save then (do return some (← text)) else return none) >>= k)).map get ∧
      ∀ out, ((if save then (do return some (← text)) else return none) >>= k) = .ok (some out) →
        ((if save then (saveFile path text >>= fun _ => rest) else rest : Prog β) w).2 = after out := by
  cases save with
  | false => exact hrest none (by simp) (by simp)
  | true =>
    simp only [if_true]
    rw [prog_bind]
    rcases text with f | t
    · rw [saveFile_error (hw rfl)]
      exact ⟨rfl, fun _ h => by cases h⟩
    · rw [saveFile_ok (hw rfl)]
      exact hrest (some t) (fun _ => ⟨t, rfl, rfl⟩) (by simp)

omit [Field K] [LinearOrder K] in
theorem Spec.RefText.putIf {w : World} {ref path : Str} {rtext sf : Option Str} (h : RefText w ref rtext) (hne : sf = none ∨ ref ≠ path) :
    RefText (w.putIf path sf) ref rtext := by
  rcases h with h | ⟨a, b, c⟩
  · exact Or.inl h
  · refine Or.inr ⟨a, b, ?_⟩
    cases sf with
    | none => exact c
    | some t =>
      rcases hne with h | h
      · cases h
      · show (w.put path t).files ref = _
        rw [put_other h, c]

omit [Field K] [LinearOrder K] in
theorem putIf_writable (w : World) (path : Str) (t : Option Str) : (w.putIf path t).writable = w.writable := by cases t <;> rfl

theorem runBNL_eq {w : World} {X : Execution K} {nums : Numbers K} {alpha : K} {g : Nat} {ref train text : Str} {rtext : Option Str} {s1 s2 : Bool}
    (ht : w.files train = some text) (hr : RefText w ref rtext)
    (h1 : s1 = true → w.writable (train ++ lit "_struct") = true ∧ ref ≠ train ++ lit "_struct")
    (h2 : s2 = true → w.writable (train ++ lit "_param") = true) :
    (runBNL X nums alpha g ref train s1 s2 w).1 = (ended (bnl X nums alpha g rtext text s1 s2)).map LearnOutput.shd ∧
      ∀ out, bnl X nums alpha g rtext text s1 s2 = .ok (some out) →
        (runBNL X nums alpha g ref train s1 s2 w).2 = afterLearning w train out := by
  unfold runBNL bnl
  rw [prog_bind, readFile_some ht]
  simp only
  rw [prog_bind]
  rcases e1 : loadCSVTraining text true 0 with f | D
  · exact ⟨rfl, fun _ h => by cases h⟩
  rw [pure_ok]
  simp only [ok_bind]
  rw [prog_bind]
  rcases e2 : structLearnFull X alpha g false false D with f | ⟨N, m⟩
  · exact ⟨rfl, fun _ h => by cases h⟩
  rw [pure_ok]
  simp only [ok_bind]
  refine save_then (get := LearnOutput.shd) (fun h => (h1 h).1) (fun sf hsf1 hsf2 => ?_)
  have hr' : RefText (w.putIf (train ++ lit "_struct") sf) ref rtext := by
    refine hr.putIf ?_
    cases s1 with
    | false => exact Or.inl (hsf2 rfl)
    | true => exact Or.inr (h1 rfl).2
  rw [prog_bind, compareRef_eq hr']
  rcases e3 : reportSHD nums rtext N with f | _ | d
  · exact ⟨rfl, fun _ h => by cases h⟩
  · exact ⟨rfl, fun _ h => by cases h⟩
  simp only [ok_bind, ended]
  rw [prog_bind]
  rcases e4 : (learnParams N D.natColumns D.numVars D.numInstance 1 X.rnd [] : Except Fault (List (Table K))) with f | pts
  · exact ⟨rfl, fun _ h => by cases h⟩
  rw [pure_ok]
  simp only [ok_bind]
  refine save_then (get := LearnOutput.shd) (after := afterLearning w train) (fun h => by rw [putIf_writable]; exact h2 h) (fun pf _ _ => ?_)
  refine ⟨rfl, fun out h => ?_⟩
  cases h
  rfl

theorem runClassify_eq {w : World} {X : Execution K} {nums : Numbers K} {alpha : K} {g : Nat} {ref train test text ttext : Str} {rtext : Option Str}
    {s1 s2 : Bool} (ht : w.files train = some text) (htt : w.files test = some ttext) (hr : RefText w ref rtext)
    (h1 : s1 = true → w.writable (train ++ lit "_struct") = true ∧ ref ≠ train ++ lit "_struct")
    (h2 : s2 = true → w.writable (train ++ lit "_param") = true) :
    (runClassify X nums alpha g ref train test s1 s2 w).1 =
        (ended (classifyFull X nums alpha g rtext text ttext s1 s2)).map (fun r => (r.1.shd, r.2)) ∧
      ∀ out, classifyFull X nums alpha g rtext text ttext s1 s2 = .ok (some out) →
        (runClassify X nums alpha g ref train test s1 s2 w).2 = afterLearning w train out.1 := by
  unfold runClassify classifyFull
  rw [prog_bind, readFile_some ht]
  simp only
  rw [prog_bind]
  rcases e1 : loadCSVTraining text true 0 with f | D
  · exact ⟨rfl, fun _ h => by cases h⟩
  rw [pure_ok]
  simp only [ok_bind]
  rw [prog_bind, readFile_some htt]
  simp only
  rw [prog_bind]
  rcases e1 : D.forTesting.loadCSVTesting ttext true 0 with f | T
  · exact ⟨rfl, fun _ h => by cases h⟩
  rw [pure_ok]
  simp only [ok_bind]
  rw [prog_bind]
  rcases e2 : structLearnFull X alpha g true true D with f | ⟨N, m⟩
  · exact ⟨rfl, fun _ h => by cases h⟩
  rw [pure_ok]
  simp only [ok_bind]
  refine save_then (get := fun r : LearnOutput × K => (r.1.shd, r.2)) (after := fun r => afterLearning w train r.1) (fun h => (h1 h).1)
    (fun sf hsf1 hsf2 => ?_)
  have hr' : RefText (w.putIf (train ++ lit "_struct") sf) ref rtext := by
    refine hr.putIf ?_
    cases s1 with
    | false => exact Or.inl (hsf2 rfl)
    | true => exact Or.inr (h1 rfl).2
  rw [prog_bind, compareRef_eq hr']
  rcases e3 : reportSHD nums rtext N with f | _ | d
  · exact ⟨rfl, fun _ h => by cases h⟩
  · exact ⟨rfl, fun _ h => by cases h⟩
  simp only [ok_bind, ended]
  rw [prog_bind]
  rcases e4 : (learnParams N D.natColumns D.numVars D.numInstance 1 X.rnd [] : Except Fault (List (Table K))) with f | pts
  · exact ⟨rfl, fun _ h => by cases h⟩
  rw [pure_ok]
  simp only [ok_bind]
  refine save_then (get := fun r : LearnOutput × K => (r.1.shd, r.2)) (after := fun r => afterLearning w train r.1)
    (fun h => by rw [putIf_writable]; exact h2 h) (fun pf _ _ => ?_)
  rw [prog_bind]
  rcases e5 : inferenceInit 1 T.classVar.toNat T.natRows with f | ⟨E, tr⟩
  · exact ⟨rfl, fun _ h => by cases h⟩
  simp only [ok_bind]
  rcases e6 : buildJunctionTree N N.card pts X.order X.cord with f | J
  · exact ⟨rfl, fun _ h => by cases h⟩
  simp only [ok_bind]
  rcases e7 : J.predictAll E T.classVar.toNat with f | ⟨ls, J'⟩
  · exact ⟨rfl, fun _ h => by cases h⟩
  simp only [ok_bind]
  rcases e8 : (accuracy tr ls : Except Fault K) with f | a
  · exact ⟨rfl, fun _ h => by cases h⟩
  refine ⟨rfl, fun out h => ?_⟩
  cases h
  rfl

/-! ### Commands on a network file -/

theorem runInference_eq {w : World} {R : Runtime K ω} {net test pt ntext ttext : Str} {ptext : Option Str} {doc : XmlDoc}
    (hn : w.files net = some ntext) (hx : R.xml ntext = .ok doc) (ht : w.files test = some ttext) (hp : RefText w pt ptext) :
    runInference R net test pt w =
      (outcome (exactInference R.nums.stod R.nums.toCount R.trunc R.sqrt R.X.order R.X.cord doc ttext ptext), w) := by
  unfold runInference exactInference
  rw [prog_bind, readFile_some hn]
  simp only
  rw [prog_bind, hx, pure_ok]
  simp only
  rw [prog_bind]
  rcases e1 : loadXMLBIF R.nums.stod R.nums.toCount doc with f | F
  · rfl
  rw [pure_ok]
  simp only [ok_bind]
  rw [prog_bind, readFile_some ht]
  simp only
  rw [prog_bind]
  rcases e2 : F.testDataset.loadCSVTesting ttext true 0 with f | T
  · rfl
  rw [pure_ok]
  simp only [ok_bind]
  rw [prog_bind]
  rcases e3 : inferenceInit 0 T.classVar.toNat T.natRows with f | ⟨E, tr⟩
  · rfl
  rw [pure_ok]
  simp only [ok_bind]
  rw [prog_bind]
  rcases e4 : sampleTables F.net F.prob with f | pts
  · rfl
  rw [pure_ok]
  simp only [ok_bind]
  rw [prog_bind]
  rcases e5 : buildJunctionTree F.net F.net.card pts R.X.order R.X.cord with f | J
  · rfl
  rw [pure_ok]
  simp only [ok_bind]
  rcases hp with ⟨rfl, rfl⟩ | ⟨a, b, c⟩
  · rw [if_pos rfl, prog_bind]
    rcases e6 : J.propagateAll E with f | J'
    · rfl
    · rfl
  · rw [if_neg a]
    obtain ⟨t, rfl⟩ := Option.ne_none_iff_exists'.1 b
    rw [prog_bind, readFile_some c]
    simp only
    rw [prog_bind]
    rcases e6 : loadGroundTruth R.nums.stod (F.net.nodes.map NodeS.dim) E.length t with f | tr
    · rfl
    rw [pure_ok]
    simp only [ok_bind]
    rw [prog_bind]
    rcases e7 : J.evaluate R.trunc R.sqrt E tr with f | r
    · rfl
    · rfl

/-- The samples in LIBSVM format. -/
theorem runSamples_libsvm {w : World} {R : Runtime K ω} {net ntext : Str} {doc : XmlDoc} {n : Nat} {cls : Int}
    (hn : w.files net = some ntext) (hx : R.xml ntext = .ok doc)
    (hw : w.writable (getLastPath net ++ lit "/sample_" ++ intToStr n ++ lit "_libsvm") = true) :
    (runSamples R net true n cls w).1 =
        (outcome (sampleGenerator R.nums.stod R.nums.toCount R.draw R.samples doc true n cls)).map (fun _ => ()) ∧
      ∀ text, sampleGenerator R.nums.stod R.nums.toCount R.draw R.samples doc true n cls = .ok text →
        (runSamples R net true n cls w).2 = w.put (getLastPath net ++ lit "/sample_" ++ intToStr n ++ lit "_libsvm") text := by
  unfold runSamples sampleGenerator
  rw [prog_bind, readFile_some hn]
  simp only
  rw [prog_bind, hx, pure_ok]
  simp only
  rw [prog_bind]
  rcases e1 : loadXMLBIF R.nums.stod R.nums.toCount doc with f | F
  · exact ⟨rfl, fun _ h => by cases h⟩
  rw [pure_ok]
  simp only [ok_bind]
  rw [if_neg (by omega), prog_bind, Int.toNat_natCast]
  rcases e2 : generateSamples R.draw F.net F.prob n R.samples with f | ⟨S, N⟩
  · exact ⟨rfl, fun _ h => by cases h⟩
  rw [pure_ok]
  simp only [ok_bind]
  rw [prog_bind]
  rcases e3 : outputLIBSVM N.nodes.length n cls S with f | t
  · rw [saveFile_error hw]
    exact ⟨rfl, fun _ h => by cases h⟩
  rw [saveFile_ok hw]
  refine ⟨rfl, fun out h => ?_⟩
  cases h
  rfl

/-- The samples in CSV format; the LIBSVM file is written too. -/
theorem runSamples_csv {w : World} {R : Runtime K ω} {net ntext : Str} {doc : XmlDoc} {n : Nat} {cls : Int}
    (hn : w.files net = some ntext) (hx : R.xml ntext = .ok doc)
    (hw : w.writable (getLastPath net ++ lit "/sample_" ++ intToStr n ++ lit "_libsvm") = true)
    (hw' : w.writable (getLastPath net ++ lit "/sample_" ++ intToStr n ++ lit "_csv") = true) :
    (runSamples R net false n cls w).1 =
        (outcome (sampleGenerator R.nums.stod R.nums.toCount R.draw R.samples doc false n cls)).map (fun _ => ()) ∧
      ∀ text, sampleGenerator R.nums.stod R.nums.toCount R.draw R.samples doc false n cls = .ok text →
        ∃ first, sampleGenerator R.nums.stod R.nums.toCount R.draw R.samples doc true n cls = .ok first ∧
          (runSamples R net false n cls w).2 = (w.put (getLastPath net ++ lit "/sample_" ++ intToStr n ++ lit "_libsvm") first).put
            (getLastPath net ++ lit "/sample_" ++ intToStr n ++ lit "_csv") text := by
  unfold runSamples sampleGenerator
  rw [prog_bind, readFile_some hn]
  simp only
  rw [prog_bind, hx, pure_ok]
  simp only
  rw [prog_bind]
  rcases e1 : loadXMLBIF R.nums.stod R.nums.toCount doc with f | F
  · exact ⟨rfl, fun _ h => by cases h⟩
  rw [pure_ok]
  simp only [ok_bind]
  rw [if_neg (by omega), prog_bind, Int.toNat_natCast]
  rcases e2 : generateSamples R.draw F.net F.prob n R.samples with f | ⟨S, N⟩
  · exact ⟨rfl, fun _ h => by cases h⟩
  rw [pure_ok]
  simp only [ok_bind]
  rw [prog_bind]
  rcases e3 : outputLIBSVM N.nodes.length n cls S with f | t
  · rw [saveFile_error hw]
    exact ⟨rfl, fun _ h => by cases h⟩
  rw [saveFile_ok hw]
  simp only [ok_bind, Bool.false_eq_true, if_false]
  rw [prog_bind, readFile_some put_same]
  simp only
  rw [prog_bind]
  rcases e4 : F.testDataset.loadLIBSVMTesting t cls with f | D
  · exact ⟨rfl, fun _ h => by cases h⟩
  rw [pure_ok]
  simp only [ok_bind]
  rw [prog_bind]
  rcases e5 : (List.range D.numVars).mapM (rd F.names) with f | names
  · exact ⟨rfl, fun _ h => by cases h⟩
  rw [pure_ok]
  simp only [ok_bind]
  rcases e6 : Dataset.storeCSV { D with varNames := names } true with f | text
  · rw [saveFile_error (show (w.put _ t).writable _ = true from hw')]
    exact ⟨rfl, fun _ h => by cases h⟩
  rw [saveFile_ok (show (w.put _ t).writable _ = true from hw')]
  refine ⟨rfl, fun out h => ?_⟩
  cases h
  exact ⟨t, rfl, rfl⟩

end FastPGM
