import Verif.Lemmas.Program3
import Verif.Props.LearnCommands
import Verif.Props.ClassifyCommand
import Verif.Props.Commands

/-!
The program as a whole, from the command line and the files to the changed files and the printed results (C78, C79).
-/

namespace FastPGM

open Spec

variable {K ω : Type} [Field K] [LinearOrder K]

theorem program_eq {R : Runtime K ω} {args : List Str} {p : Settings K} (h : parseParameters R.nums.stod R.alpha0 args = .ok p) (w : World) :
    program R args w = dispatch R p w := by
  unfold program
  rw [prog_bind, h, pure_ok]

/-! ### C78 -/

/-- C78.  Whatever the command line, the files and the course of the run, and however the run ends: the program changes no file but the structure
file and the parameter file beside the training file (in the learning and classification commands, if saving is on) and the sample files
beside the network file (in the sample generator), and only files it may write. -/
theorem C78_files (R : Runtime K ω) (args : List Str) (w : World) :
    (program R args w).2.writable = w.writable ∧
      ∀ q, (program R args w).2.files q ≠ w.files q →
        w.writable q = true ∧ ∃ p, parseParameters R.nums.stod R.alpha0 args = .ok p ∧ MayWrite (dataPath R.source) p q := by
  have key : Touches (fun q => ∃ p, parseParameters R.nums.stod R.alpha0 args = .ok p ∧ MayWrite (dataPath R.source) p q) (program R args) := by
    unfold program
    rcases hp : parseParameters R.nums.stod R.alpha0 args with f | p
    · intro w; exact ⟨rfl, fun _ h => absurd rfl h⟩
    suffices h : Touches (MayWrite (dataPath R.source) p) (dispatch R p) by
      intro w
      have := h w
      refine ⟨this.1, fun q hq => ⟨(this.2 q hq).1, p, rfl, (this.2 q hq).2⟩⟩
    unfold dispatch
    dsimp only
    obtain ⟨dir, hdir⟩ := exists_split (path := dataPath R.source ++ p.netFile) (List.mem_append_left _ (slash_dataPath _))
    refine touches_ite (fun hj => touches_ite (fun _ => touches_pure _ _) (fun hm => ?_)) (fun h0 => ?_)
    · rw [not_not] at hm
      exact (touches_bnsl _ _ _ _ _ _ _ (fun hs => .structure (Or.inl ⟨hj, hm⟩) hs)).bind (fun _ => touches_return _ _)
    refine touches_ite (fun hj => touches_ite (fun _ => touches_pure _ _) (fun hm => ?_)) (fun h1 => ?_)
    · rw [not_not] at hm
      exact (touches_bnl _ _ _ _ _ _ _ _ (fun hs => .structure (Or.inr (Or.inl ⟨hj, hm⟩)) hs)
        (fun hs => .parameters (Or.inl ⟨hj, hm⟩) hs)).bind (fun _ => touches_return _ _)
    refine touches_ite (fun hj => touches_ite (fun _ => ?_) (fun hm => touches_pure _ _)) (fun h2 => ?_)
    · exact (touches_inference _ _ _ _ _).bind (fun _ => touches_return _ _)
    refine touches_ite (fun hj => touches_ite (fun _ => touches_pure _ _) (fun hm => touches_return _ _)) (fun h3 => ?_)
    refine touches_ite (fun hj => touches_ite (fun hm => ?_) (fun hm => touches_return _ _)) (fun h4 => ?_)
    · exact (touches_classify _ _ _ _ _ _ _ _ _ (fun hs => .structure (Or.inr (Or.inr ⟨hj, hm⟩)) hs)
        (fun hs => .parameters (Or.inr ⟨hj, hm⟩) hs)).bind (fun _ => touches_return _ _)
    refine touches_ite (fun hj => touches_ite (fun hm => ?_) (fun hm => touches_return _ _)) (fun h5 => touches_return _ _)
    refine (touches_samples _ _ _ _ _ (fun hn => ?_) (fun hn hl => ?_)).bind (fun _ => touches_return _ _)
    · rw [getLastPath_eq hdir]
      have := MayWrite.libsvm (p := p) dir p.numSamples.toNat hdir hj hm (by omega)
      rw [Int.toNat_of_nonneg hn] at this
      exact this
    · rw [getLastPath_eq hdir]
      have hm' : p.method = 1 := by
        by_contra h
        simp [h] at hl
      have := MayWrite.csv (p := p) dir p.numSamples.toNat hdir hj hm' (by omega)
      rw [Int.toNat_of_nonneg hn] at this
      exact this
  exact key w

omit [Field K] [LinearOrder K] in
/-- C78.  If the path of the source file has the directory `FastPGM`, the data directory is its subdirectory `dataset`. -/
theorem C78_data_path {a b : Str} (h : FirstAt (a ++ lit "FastPGM/" ++ b) (lit "FastPGM") a.length) :
    dataPath (a ++ lit "FastPGM/" ++ b) = a ++ lit "FastPGM/dataset/" := by
  unfold dataPath
  rw [(findString_some (by decide)).2 h]
  simp only
  rw [List.take_append_of_le_length (by simp [lit])]
  have : (a ++ lit "FastPGM/").length = a.length + 8 := by rw [List.length_append]; rfl
  rw [← this, List.take_length, List.append_assoc]
  rfl

omit [Field K] [LinearOrder K] in
/-- C78, violation: a directory whose name only begins with `FastPGM`, such as `FastPGM-master`, is cut after the first character that follows,
and a path without the name after its seventh character. -/
theorem C78_data_path_cut {a b : Str} {c : Int} (h : FirstAt (a ++ lit "FastPGM" ++ c :: b) (lit "FastPGM") a.length) :
    dataPath (a ++ lit "FastPGM" ++ c :: b) = a ++ lit "FastPGM" ++ c :: lit "dataset/" := by
  unfold dataPath
  rw [(findString_some (by decide)).2 h]
  simp only
  have e : a ++ lit "FastPGM" ++ c :: b = (a ++ lit "FastPGM" ++ [c]) ++ b := by simp
  have : (a ++ lit "FastPGM" ++ [c]).length = a.length + 8 := by simp [lit]
  rw [e, List.take_append_of_le_length (by omega), ← this, List.take_length]
  simp

omit [Field K] [LinearOrder K] in
/-- C78, violation: without the name in the path of the source file. -/
theorem C78_data_path_none {s : Str} (h : ∀ k, ¬ FirstAt s (lit "FastPGM") k) : dataPath s = s.take 7 ++ lit "dataset/" := by
  unfold dataPath
  rcases hf : findString (lit "FastPGM") s with _ | k
  · rfl
  · exact absurd ((findString_some (by decide)).1 hf) (h k)

omit [Field K] [LinearOrder K] in
theorem dataPath_ne (s name : Str) : dataPath s ++ name ≠ [] := by
  intro h
  have := slash_dataPath s
  rw [(List.append_eq_nil_iff.1 h).1] at this
  simp at this

omit [Field K] [LinearOrder K] in
theorem refText {w : World} {s name : Str} {text : Option Str} (h : GivenText w (dataPath s) name text) :
    RefText w (if name = [] then [] else dataPath s ++ name) text := by
  rcases h with ⟨rfl, rfl⟩ | ⟨a, b, c⟩
  · rw [if_pos rfl]; exact Or.inl ⟨rfl, rfl⟩
  · rw [if_neg a]; exact Or.inr ⟨dataPath_ne _ _, b, c⟩

omit [Field K] [LinearOrder K] in
theorem ref_ne {s name other : Str} (h : name ≠ other) : (if name = [] then [] else dataPath s ++ name) ≠ dataPath s ++ other := by
  by_cases c : name = []
  · rw [if_pos c]; exact (dataPath_ne _ _).symm
  · rw [if_neg c]
    intro e
    exact h (List.append_cancel_left e)

/-- C78.  Structure learning: job 0 with method 0 does what `BNSL_PCStable` (C75) says with the files of the data directory, and writes the
structure file beside the training file. -/
theorem C78_structure {R : Runtime K ω} {args : List Str} {p : Settings K} {w : World} {text : Str} {rtext : Option Str}
    (hp : parseParameters R.nums.stod R.alpha0 args = .ok p) (hj : p.job = 0) (hm : p.method = 0)
    (ht : w.files (dataPath R.source ++ p.trainSetFile) = some text) (hr : GivenText w (dataPath R.source) p.refNetFile rtext)
    (hs : p.saveStruct = true → w.writable (dataPath R.source ++ p.trainSetFile ++ lit "_struct") = true ∧ p.refNetFile ≠ p.trainSetFile ++ lit "_struct") :
    (program R args w).1 = (ended (bnsl R.X R.nums p.alpha p.groupSize.toNat rtext text p.saveStruct)).map (fun out => .distance out.shd) ∧
      ∀ out, bnsl R.X R.nums p.alpha p.groupSize.toNat rtext text p.saveStruct = .ok (some out) →
        (program R args w).2 = afterLearning w (dataPath R.source ++ p.trainSetFile) out := by
  rw [program_eq hp]
  unfold dispatch
  dsimp only
  rw [if_pos hj, if_neg (not_not.2 hm), prog_bind]
  obtain ⟨h1, h2⟩ := runBNSL_eq (X := R.X) (nums := R.nums) (alpha := p.alpha) (g := p.groupSize.toNat) (save := p.saveStruct) ht (refText hr)
    (fun h => ⟨(hs h).1, by rw [List.append_assoc]; exact ref_ne (hs h).2⟩)
  revert h1 h2
  generalize runBNSL R.X R.nums p.alpha p.groupSize.toNat _ _ _ w = r
  obtain ⟨r, w'⟩ := r
  rintro h1 h2
  dsimp only at h1 h2
  rcases e : bnsl R.X R.nums p.alpha p.groupSize.toNat rtext text p.saveStruct with f | _ | out
  · rw [e] at h1; subst h1; exact ⟨rfl, fun _ h => by cases h⟩
  · rw [e] at h1; subst h1; exact ⟨rfl, fun _ h => by cases h⟩
  · rw [e] at h1; subst h1
    refine ⟨rfl, fun out' h => ?_⟩
    cases h
    obtain ⟨a, b⟩ := h2 out e
    show w' = _
    rw [a]
    unfold afterLearning
    rw [b]
    rfl

/-- C78.  Learning: job 1 with method 0 does what `BNL_PCStable` (C76) says, and writes the two files beside the training file. -/
theorem C78_learning {R : Runtime K ω} {args : List Str} {p : Settings K} {w : World} {text : Str} {rtext : Option Str}
    (hp : parseParameters R.nums.stod R.alpha0 args = .ok p) (hj : p.job = 1) (hm : p.method = 0)
    (ht : w.files (dataPath R.source ++ p.trainSetFile) = some text) (hr : GivenText w (dataPath R.source) p.refNetFile rtext)
    (hs : p.saveStruct = true → w.writable (dataPath R.source ++ p.trainSetFile ++ lit "_struct") = true ∧ p.refNetFile ≠ p.trainSetFile ++ lit "_struct")
    (hs' : p.saveParam = true → w.writable (dataPath R.source ++ p.trainSetFile ++ lit "_param") = true) :
    (program R args w).1 = (ended (bnl R.X R.nums p.alpha p.groupSize.toNat rtext text p.saveStruct p.saveParam)).map (fun out => .distance out.shd) ∧
      ∀ out, bnl R.X R.nums p.alpha p.groupSize.toNat rtext text p.saveStruct p.saveParam = .ok (some out) →
        (program R args w).2 = afterLearning w (dataPath R.source ++ p.trainSetFile) out := by
  rw [program_eq hp]
  unfold dispatch
  dsimp only
  rw [if_neg (by omega), if_pos hj, if_neg (not_not.2 hm), prog_bind]
  obtain ⟨h1, h2⟩ := runBNL_eq (X := R.X) (nums := R.nums) (alpha := p.alpha) (g := p.groupSize.toNat) (s1 := p.saveStruct) (s2 := p.saveParam) ht (refText hr)
    (fun h => ⟨(hs h).1, by rw [List.append_assoc]; exact ref_ne (hs h).2⟩) hs'
  revert h1 h2
  generalize runBNL R.X R.nums p.alpha p.groupSize.toNat _ _ _ _ w = r
  obtain ⟨r, w'⟩ := r
  rintro h1 h2
  dsimp only at h1 h2
  rcases e : bnl R.X R.nums p.alpha p.groupSize.toNat rtext text p.saveStruct p.saveParam with f | _ | out
  · rw [e] at h1; subst h1; exact ⟨rfl, fun _ h => by cases h⟩
  · rw [e] at h1; subst h1; exact ⟨rfl, fun _ h => by cases h⟩
  · rw [e] at h1; subst h1
    refine ⟨rfl, fun out' h => ?_⟩
    cases h
    exact h2 out e

/-- C78.  Classification: job 4 with method 1 does what `C_PCStable_JT` (C77) says, and writes the two files beside the training file. -/
theorem C78_classification {R : Runtime K ω} {args : List Str} {p : Settings K} {w : World} {text ttext : Str} {rtext : Option Str}
    (hp : parseParameters R.nums.stod R.alpha0 args = .ok p) (hj : p.job = 4) (hm : p.method = 1)
    (ht : w.files (dataPath R.source ++ p.trainSetFile) = some text) (htt : w.files (dataPath R.source ++ p.testSetFile) = some ttext)
    (hr : GivenText w (dataPath R.source) p.refNetFile rtext)
    (hs : p.saveStruct = true → w.writable (dataPath R.source ++ p.trainSetFile ++ lit "_struct") = true ∧ p.refNetFile ≠ p.trainSetFile ++ lit "_struct")
    (hs' : p.saveParam = true → w.writable (dataPath R.source ++ p.trainSetFile ++ lit "_param") = true) :
    (program R args w).1 =
        (ended (classifyFull R.X R.nums p.alpha p.groupSize.toNat rtext text ttext p.saveStruct p.saveParam)).map (fun r => .accuracy r.1.shd r.2) ∧
      ∀ out, classifyFull R.X R.nums p.alpha p.groupSize.toNat rtext text ttext p.saveStruct p.saveParam = .ok (some out) →
        (program R args w).2 = afterLearning w (dataPath R.source ++ p.trainSetFile) out.1 := by
  rw [program_eq hp]
  unfold dispatch
  dsimp only
  rw [if_neg (by omega), if_neg (by omega), if_neg (by omega), if_neg (by omega), if_pos hj, if_pos hm, prog_bind]
  obtain ⟨h1, h2⟩ := runClassify_eq (X := R.X) (nums := R.nums) (alpha := p.alpha) (g := p.groupSize.toNat) (s1 := p.saveStruct) (s2 := p.saveParam) ht htt
    (refText hr) (fun h => ⟨(hs h).1, by rw [List.append_assoc]; exact ref_ne (hs h).2⟩) hs'
  revert h1 h2
  generalize runClassify R.X R.nums p.alpha p.groupSize.toNat _ _ _ _ _ w = r
  obtain ⟨r, w'⟩ := r
  rintro h1 h2
  dsimp only at h1 h2
  rcases e : classifyFull R.X R.nums p.alpha p.groupSize.toNat rtext text ttext p.saveStruct p.saveParam with f | _ | out
  · rw [e] at h1; subst h1; exact ⟨rfl, fun _ h => by cases h⟩
  · rw [e] at h1; subst h1; exact ⟨rfl, fun _ h => by cases h⟩
  · rw [e] at h1; subst h1
    refine ⟨rfl, fun out' h => ?_⟩
    cases h
    exact h2 out e

/-- C78.  Exact inference: job 2 with method 1 does what `BNEI_JT` (C71) says, and changes no file. -/
theorem C78_inference {R : Runtime K ω} {args : List Str} {p : Settings K} {w : World} {ntext ttext : Str} {ptext : Option Str} {doc : XmlDoc}
    (hp : parseParameters R.nums.stod R.alpha0 args = .ok p) (hj : p.job = 2) (hm : p.method = 1)
    (hn : w.files (dataPath R.source ++ p.netFile) = some ntext) (hx : R.xml ntext = .ok doc)
    (ht : w.files (dataPath R.source ++ p.testSetFile) = some ttext) (hpt : GivenText w (dataPath R.source) p.ptFile ptext) :
    program R args w = ((outcome (exactInference R.nums.stod R.nums.toCount R.trunc R.sqrt R.X.order R.X.cord doc ttext ptext)).map .errors, w) := by
  rw [program_eq hp]
  unfold dispatch
  dsimp only
  rw [if_neg (by omega), if_neg (by omega), if_pos hj, if_pos hm, prog_bind, runInference_eq hn hx ht (refText hpt)]
  rcases exactInference R.nums.stod R.nums.toCount R.trunc R.sqrt R.X.order R.X.cord doc ttext ptext with f | r <;> rfl

/-- C78.  Samples: job 5 with method 0 writes the samples of `Sample_Generator` (C72) in LIBSVM format to a file in the directory of the
network file. -/
theorem C78_samples_libsvm {R : Runtime K ω} {args : List Str} {p : Settings K} {w : World} {ntext dir : Str} {doc : XmlDoc} {n : Nat}
    (hp : parseParameters R.nums.stod R.alpha0 args = .ok p) (hj : p.job = 5) (hm : p.method = 0) (hq : p.numSamples = n)
    (hn : w.files (dataPath R.source ++ p.netFile) = some ntext) (hx : R.xml ntext = .ok doc) (hd : SplitsPath (dataPath R.source ++ p.netFile) dir)
    (hw : w.writable (dir ++ lit "/sample_" ++ intToStr n ++ lit "_libsvm") = true) :
    (program R args w).1 =
        (outcome (sampleGenerator R.nums.stod R.nums.toCount R.draw R.samples doc true n p.classVariable)).map (fun _ => .nothing) ∧
      ∀ text, sampleGenerator R.nums.stod R.nums.toCount R.draw R.samples doc true n p.classVariable = .ok text →
        (program R args w).2 = w.put (dir ++ lit "/sample_" ++ intToStr n ++ lit "_libsvm") text := by
  rw [program_eq hp]
  unfold dispatch
  dsimp only
  rw [if_neg (by omega), if_neg (by omega), if_neg (by omega), if_neg (by omega), if_neg (by omega), if_pos hj, if_pos (Or.inl hm), prog_bind, hq]
  have e : decide (p.method ≠ 1) = true := by simp [hm]
  rw [e]
  rw [← getLastPath_eq hd] at hw ⊢
  obtain ⟨h1, h2⟩ := runSamples_libsvm (R := R) (cls := p.classVariable) hn hx hw
  revert h1 h2
  generalize runSamples R _ _ _ _ w = r
  obtain ⟨r, w'⟩ := r
  rintro h1 h2
  dsimp only at h1 h2
  rcases e : sampleGenerator R.nums.stod R.nums.toCount R.draw R.samples doc true n p.classVariable with f | out
  · rw [e] at h1; subst h1; exact ⟨rfl, fun _ h => by cases h⟩
  · rw [e] at h1; subst h1
    refine ⟨rfl, fun out' h => ?_⟩
    cases h
    exact h2 out e

/-- C78.  Samples: job 5 with method 1 writes the samples in CSV format to a file in the directory of the network file, and in LIBSVM format to
another. -/
theorem C78_samples_csv {R : Runtime K ω} {args : List Str} {p : Settings K} {w : World} {ntext dir : Str} {doc : XmlDoc} {n : Nat}
    (hp : parseParameters R.nums.stod R.alpha0 args = .ok p) (hj : p.job = 5) (hm : p.method = 1) (hq : p.numSamples = n)
    (hn : w.files (dataPath R.source ++ p.netFile) = some ntext) (hx : R.xml ntext = .ok doc) (hd : SplitsPath (dataPath R.source ++ p.netFile) dir)
    (hw : w.writable (dir ++ lit "/sample_" ++ intToStr n ++ lit "_libsvm") = true)
    (hw' : w.writable (dir ++ lit "/sample_" ++ intToStr n ++ lit "_csv") = true) :
    (program R args w).1 =
        (outcome (sampleGenerator R.nums.stod R.nums.toCount R.draw R.samples doc false n p.classVariable)).map (fun _ => .nothing) ∧
      ∀ text, sampleGenerator R.nums.stod R.nums.toCount R.draw R.samples doc false n p.classVariable = .ok text →
        ∃ first, sampleGenerator R.nums.stod R.nums.toCount R.draw R.samples doc true n p.classVariable = .ok first ∧
          (program R args w).2 = (w.put (dir ++ lit "/sample_" ++ intToStr n ++ lit "_libsvm") first).put
            (dir ++ lit "/sample_" ++ intToStr n ++ lit "_csv") text := by
  rw [program_eq hp]
  unfold dispatch
  dsimp only
  rw [if_neg (by omega), if_neg (by omega), if_neg (by omega), if_neg (by omega), if_neg (by omega), if_pos hj, if_pos (Or.inr hm), prog_bind, hq]
  have e : decide (p.method ≠ 1) = false := by simp [hm]
  rw [e]
  rw [← getLastPath_eq hd] at hw hw' ⊢
  obtain ⟨h1, h2⟩ := runSamples_csv (R := R) (cls := p.classVariable) hn hx hw hw'
  revert h1 h2
  generalize runSamples R _ _ _ _ w = r
  obtain ⟨r, w'⟩ := r
  rintro h1 h2
  dsimp only at h1 h2
  rcases e : sampleGenerator R.nums.stod R.nums.toCount R.draw R.samples doc false n p.classVariable with f | out
  · rw [e] at h1; subst h1; exact ⟨rfl, fun _ h => by cases h⟩
  · rw [e] at h1; subst h1
    refine ⟨rfl, fun out' h => ?_⟩
    cases h
    exact h2 out e

/-- C78.  A command line that is not accepted, a job with a method that is announced as unsupported, or a missing file that is read first end the
program; no file is changed. -/
theorem C78_stops (R : Runtime K ω) (args : List Str) (w : World) :
    (∀ f, parseParameters R.nums.stod R.alpha0 args = .error f → program R args w = (.error (.fault f), w)) ∧
    ∀ p, parseParameters R.nums.stod R.alpha0 args = .ok p →
      (((p.job = 0 ∨ p.job = 1) ∧ p.method ≠ 0 ∨ p.job = 2 ∧ p.method ≠ 1 ∨ p.job = 3 ∧ p.method = 0) →
        program R args w = (.error (.fault .exit), w)) ∧
      (((p.job = 0 ∨ p.job = 1) ∧ p.method = 0 ∨ p.job = 4 ∧ p.method = 1) → w.files (dataPath R.source ++ p.trainSetFile) = none →
        program R args w = (.error (.fault .exit), w)) ∧
      ((p.job = 2 ∧ p.method = 1 ∨ p.job = 5 ∧ (p.method = 0 ∨ p.method = 1)) → w.files (dataPath R.source ++ p.netFile) = none →
        program R args w = (.error (.fault .exit), w)) := by
  refine ⟨fun f h => ?_, fun p hp => ⟨fun h => ?_, fun h hf => ?_, fun h hf => ?_⟩⟩
  · unfold program
    rw [prog_bind, h, pure_error]
  · rw [program_eq hp]
    unfold dispatch
    dsimp only
    rcases h with ⟨h | h, hm⟩ | ⟨h, hm⟩ | ⟨h, hm⟩
    · rw [if_pos h, if_pos hm]; rfl
    · rw [if_neg (by omega), if_pos h, if_pos hm]; rfl
    · rw [if_neg (by omega), if_neg (by omega), if_pos h, if_neg hm]; rfl
    · rw [if_neg (by omega), if_neg (by omega), if_neg (by omega), if_pos h, if_pos hm]; rfl
  · rw [program_eq hp]
    unfold dispatch
    dsimp only
    rcases h with ⟨h | h, hm⟩ | ⟨h, hm⟩
    · rw [if_pos h, if_neg (not_not.2 hm), prog_bind]
      unfold runBNSL
      rw [prog_bind, readFile_none hf]
    · rw [if_neg (by omega), if_pos h, if_neg (not_not.2 hm), prog_bind]
      unfold runBNL
      rw [prog_bind, readFile_none hf]
    · rw [if_neg (by omega), if_neg (by omega), if_neg (by omega), if_neg (by omega), if_pos h, if_pos hm, prog_bind]
      unfold runClassify
      rw [prog_bind, readFile_none hf]
  · rw [program_eq hp]
    unfold dispatch
    dsimp only
    rcases h with ⟨h, hm⟩ | ⟨h, hm⟩
    · rw [if_neg (by omega), if_neg (by omega), if_pos h, if_pos hm, prog_bind]
      unfold runInference
      rw [prog_bind, readFile_none hf]
    · rw [if_neg (by omega), if_neg (by omega), if_neg (by omega), if_neg (by omega), if_neg (by omega), if_pos h, if_pos hm, prog_bind]
      unfold runSamples
      rw [prog_bind, readFile_none hf]

/-- C78, violation: for the other jobs and methods the program does nothing and ends as if it had succeeded, among them classification with the
default method 0. -/
theorem C78_silent {R : Runtime K ω} {args : List Str} {p : Settings K} (w : World) (hp : parseParameters R.nums.stod R.alpha0 args = .ok p)
    (h : p.job = 3 ∧ p.method ≠ 0 ∨ p.job = 4 ∧ p.method ≠ 1 ∨ p.job = 5 ∧ p.method ≠ 0 ∧ p.method ≠ 1) :
    program R args w = (.ok .nothing, w) := by
  rw [program_eq hp]
  unfold dispatch
  dsimp only
  rcases h with ⟨h, hm⟩ | ⟨h, hm⟩ | ⟨h, hm, hm'⟩
  · rw [if_neg (by omega), if_neg (by omega), if_neg (by omega), if_pos h, if_neg hm]; rfl
  · rw [if_neg (by omega), if_neg (by omega), if_neg (by omega), if_neg (by omega), if_pos h, if_neg hm]; rfl
  · rw [if_neg (by omega), if_neg (by omega), if_neg (by omega), if_neg (by omega), if_neg (by omega), if_pos h, if_neg (by omega)]; rfl

/-! ### C79 -/

/-- C79.  The result depends only on the files the options name: on two file systems that agree on these files and on what may be written, a run
has the same result, however it ends, and every file either ends with the same text or is left alone in both. -/
theorem C79_depends (R : Runtime K ω) (args : List Str) {w w₂ : World} (hw : w.writable = w₂.writable)
    (h : ∀ p, parseParameters R.nums.stod R.alpha0 args = .ok p → ∀ q, ReadsFile (dataPath R.source) p q → w.files q = w₂.files q) :
    (program R args w).1 = (program R args w₂).1 ∧
      ∀ q, (program R args w).2.files q = (program R args w₂).2.files q ∨
        ((program R args w).2.files q = w.files q ∧ (program R args w₂).2.files q = w₂.files q) := by
  rcases hp : parseParameters R.nums.stod R.alpha0 args with f | p
  · rw [(C78_stops R args w).1 f hp, (C78_stops R args w₂).1 f hp]
    exact ⟨rfl, fun _ => Or.inr ⟨rfl, rfl⟩⟩
  · rw [program_eq hp, program_eq hp]
    obtain ⟨a, -, b⟩ := determined_dispatch R p (P := ReadsFile (dataPath R.source) p) (fun q hq => Or.inl hq) w w₂ hw (h p hp)
    exact ⟨a, b⟩

/-- C79.  Running the program again changes nothing: if no file it reads is one it may write, a second run with the same options (and the same
random numbers and schedules) has the same result and leaves all files as the first run left them. -/
theorem C79_rerun (R : Runtime K ω) (args : List Str) (w : World)
    (h : ∀ p, parseParameters R.nums.stod R.alpha0 args = .ok p → ∀ q, ReadsFile (dataPath R.source) p q → ¬ MayWrite (dataPath R.source) p q) :
    program R args (program R args w).2 = program R args w := by
  have hf := C78_files R args w
  obtain ⟨a, b⟩ := C79_depends R args (w := w) (w₂ := (program R args w).2) hf.1.symm (fun p hp q hq => by
    by_contra hne
    obtain ⟨-, p', hp', hq'⟩ := hf.2 q (fun e => hne e.symm)
    rw [hp] at hp'
    cases hp'
    exact h p hp q hq hq')
  refine Prod.ext a.symm ?_
  have hf₂ := C78_files R args (program R args w).2
  have e1 := hf₂.1
  have e2 : (program R args (program R args w).2).2.files = (program R args w).2.files := by
    funext q
    rcases b q with e | ⟨-, e⟩
    · exact e.symm
    · exact e
  revert e1 e2
  generalize (program R args (program R args w).2).2 = x
  generalize (program R args w).2 = y
  rintro e1 e2
  cases x; cases y
  dsimp only at e1 e2
  rw [e1, e2]

/-- C79, violation: if the reference network is the file with the name of the training file and the suffix `_struct` (as saved by an earlier run),
the program compares the learned graph with the file it has just written: the result does not depend on the reference file, not even on its
existence. -/
theorem C79_reference_lost {R : Runtime K ω} {args : List Str} {p : Settings K} (hp : parseParameters R.nums.stod R.alpha0 args = .ok p)
    (hj : p.job = 0 ∨ p.job = 1) (hs : p.saveStruct = true) (href : p.refNetFile = p.trainSetFile ++ lit "_struct") {w w₂ : World}
    (hw : w.writable = w₂.writable) (h : w.files (dataPath R.source ++ p.trainSetFile) = w₂.files (dataPath R.source ++ p.trainSetFile)) :
    (program R args w).1 = (program R args w₂).1 := by
  rw [program_eq hp, program_eq hp]
  have key : Determined (fun q => q = dataPath R.source ++ p.trainSetFile) (dispatch R { p with testSetFile := [] }) := by
    refine determined_dispatch R _ (fun q hq => ?_)
    cases hq with
    | train _ => exact Or.inl rfl
    | reference h1 h2 => exact Or.inr ⟨h1, rfl, hs, href, fun e => h2 e.symm⟩
    | test h1 => dsimp only at h1; omega
    | distributions h1 => dsimp only at h1; omega
    | network h1 => dsimp only at h1; omega
  have e : ∀ w, dispatch R p w = dispatch R { p with testSetFile := [] } w := by
    intro w
    unfold dispatch
    dsimp only
    rcases hj with h | h
    · rw [if_pos h, if_pos h]
    · have h0 : ¬ p.job = 0 := by omega
      rw [if_neg h0, if_neg h0, if_pos h, if_pos h]
  rw [e, e]
  exact (key w w₂ hw (fun q hq => by subst hq; exact h)).1

/-! ### A whole run -/

/-- C78.  A whole run from the command line: if the tests on the training file give the verdicts of the reference graph, the program with job 0
prints the distance 0 and writes a structure file that describes the equivalence class of the reference graph; nothing else changes. -/
theorem C78_perfect {vs : List VarDecl} {ts : List (TableDecl K)} (good : GoodDescription vs ts) {ind : Nat → Nat → List Nat → Bool}
    (horacle : DOracle (DeclEdge ts) vs.length ind) (hfew : FewParents (DeclEdge ts) 1000) (hsome : ∃ x y, DeclEdge ts x y)
    (hone : NoTwoOutsiders vs.length (DeclEdge ts)) :
    ∃ F, ∀ (R : Runtime K ω) (args : List Str) (p : Settings K) (w : World) (names : List Str) (train : List (List Str)) (trainFile refFile last : Str),
      parseParameters R.nums.stod R.alpha0 args = .ok p → p.job = 0 → p.method = 0 → p.saveStruct = true → 0 < p.groupSize →
      p.refNetFile ≠ [] → p.refNetFile ≠ p.trainSetFile ++ lit "_struct" →
      w.files (dataPath R.source ++ p.trainSetFile) = some trainFile → w.files (dataPath R.source ++ p.refNetFile) = some (refFile ++ last) →
      w.writable (dataPath R.source ++ p.trainSetFile ++ lit "_struct") = true →
      0 ≤ p.alpha ∧ p.alpha ≤ 1 → TrainFile vs.length names train trainFile → BifDescribes R.nums.stod refFile vs ts →
      3 * vs.length < R.nums.rounds → 10 ∉ last →
      Answers (ciTest R.X.log R.X.pchisq p.alpha (trainDims train vs.length) (trainColumns train vs.length) train.length) ind vs.length
        p.groupSize.toNat →
      R.X.order0.Perm (List.range (vs.length * (vs.length - 1) / 2)) → (∀ d r l, (R.X.sched d r l).Perm l) → F ≤ R.X.fuel →
      vs.length * (vs.length - 1) / 2 < R.X.fuel →
      ∃ ls, NamesEdges (Joined (DeclEdge ts)) (Compelled (DeclEdge ts)) ls ∧
        program R args w = (.ok (.distance (some 0)),
          w.put (dataPath R.source ++ p.trainSetFile ++ lit "_struct") (structureText (columnNames names vs.length) vs.length ls.length ls)) := by
  obtain ⟨F, hF⟩ := C75_perfect good horacle hfew hsome hone
  refine ⟨F, ?_⟩
  intro R args p w names train trainFile refFile last hp hj hm hs hg hr hne htrain href hw ha hf hd hrounds hlast hans hord hsched hfuel hfuel'
  obtain ⟨ls, l1, l2⟩ := hF R.X R.nums p.alpha p.groupSize.toNat names train trainFile refFile last true ha hf hd hrounds hlast hans (by omega) hord hsched
    hfuel hfuel'
  refine ⟨ls, l1, ?_⟩
  obtain ⟨e1, e2⟩ := C78_structure (w := w) hp hj hm htrain (Or.inr ⟨hr, by simp, href⟩) (fun _ => ⟨hw, hne⟩)
  rw [hs, l2] at e1
  have := e2 _ (by rw [hs]; exact l2)
  exact Prod.ext e1 this

/-- C78.  Structure learning with a significance level outside the range 0 to 1 ends the program, whatever the data. -/
theorem C78_level_exit {R : Runtime K ω} {args : List Str} {p : Settings K} {w : World} {n : Nat} {names : List Str} {train : List (List Str)}
    {text : Str} {rtext : Option Str} (hp : parseParameters R.nums.stod R.alpha0 args = .ok p) (hj : p.job = 0) (hm : p.method = 0)
    (ht : w.files (dataPath R.source ++ p.trainSetFile) = some text) (hr : GivenText w (dataPath R.source) p.refNetFile rtext)
    (hs : p.saveStruct = true → w.writable (dataPath R.source ++ p.trainSetFile ++ lit "_struct") = true ∧ p.refNetFile ≠ p.trainSetFile ++ lit "_struct")
    (hf : TrainFile n names train text) (hn : 2 ≤ n) (ha : p.alpha < 0 ∨ 1 < p.alpha) : (program R args w).1 = .error (.fault .exit) := by
  rw [(C78_structure hp hj hm ht hr hs).1,
    (C75_level_exit (X := R.X) (nums := R.nums) (g := p.groupSize.toNat) hf hn ha rtext p.saveStruct false).1]
  rfl

/-! ### Concrete cases -/

/-- An installation: the source file, the data files and the directory `dataset` that may be written. -/
def exampleSource : Str := lit "/x/FastPGM/src/fastpgm/main.cpp"

def exampleRuntime : Runtime ℚ Unit where
  X := ratExecution 1 (fun _ j => j % 2)
  nums := exampleNumbers
  alpha0 := 1 / 20
  xml := fun _ => .ok exampleDoc
  trunc := ratTrunc
  sqrt := id
  draw := fun _ _ => .ok 1
  samples := fun _ _ => ()
  source := exampleSource

def exampleWorld : World where
  files := fun q =>
    if q = lit "/x/FastPGM/dataset/w.csv" then some weatherFile
    else if q = lit "/x/FastPGM/dataset/w.bif" then some (bifText (bifHead ++ bifWet ++ bifRain))
    else if q = lit "/x/FastPGM/dataset/w.xml" then some (lit "<BIF/>")
    else none
  writable := fun q => (lit "/x/FastPGM/dataset/").isPrefixOf q

def exampleLine : List Str := [lit "-j", lit "0", lit "-f2", lit "w.csv", lit "-f1", lit "w.bif"]

/-- Learning from the command line. -/
example : (program exampleRuntime exampleLine exampleWorld).1 = .ok (.distance (some 0)) ∧
    (program exampleRuntime exampleLine exampleWorld).2.files (lit "/x/FastPGM/dataset/w.csv_struct") =
      some (lit "number of nodes = 2, number of edges = 1\n0: Rain/v0 -- Wet/v1\n") := by
  decide +kernel

/-- The hypotheses of `C78_structure` are met. -/
example : ∃ p, parseParameters exampleNumbers.stod (1 / 20 : ℚ) exampleLine = .ok p ∧ p.job = 0 ∧ p.method = 0 ∧ p.saveStruct = true ∧
    exampleWorld.files (dataPath exampleSource ++ p.trainSetFile) = some weatherFile ∧
    GivenText exampleWorld (dataPath exampleSource) p.refNetFile (some (bifText (bifHead ++ bifWet ++ bifRain))) ∧
    exampleWorld.writable (dataPath exampleSource ++ p.trainSetFile ++ lit "_struct") = true ∧ p.refNetFile ≠ p.trainSetFile ++ lit "_struct" := by
  refine ⟨_, rfl, rfl, rfl, rfl, by decide +kernel, Or.inr ⟨by decide +kernel, by simp, by decide +kernel⟩, by decide +kernel, by decide +kernel⟩

/-- The same line with another level, as in `C78_level_exit`: nothing is reported or written. -/
example : (program { exampleRuntime with alpha0 := 2 } exampleLine exampleWorld).1 = .error (.fault .exit) ∧
    (program { exampleRuntime with alpha0 := 2 } exampleLine exampleWorld).2.files (lit "/x/FastPGM/dataset/w.csv_struct") = none := by
  decide +kernel

/-- The hypothesis of `C79_rerun` is met. -/
example : ∀ p, parseParameters exampleRuntime.nums.stod exampleRuntime.alpha0 exampleLine = .ok p → ∀ q, ReadsFile (dataPath exampleRuntime.source) p q →
    ¬ MayWrite (dataPath exampleRuntime.source) p q := by
  intro p hp q hq hw
  have e : p = { Settings.init (1 / 20) with job := 0, trainSetFile := lit "w.csv", refNetFile := lit "w.bif" } := by
    have : parseParameters exampleRuntime.nums.stod exampleRuntime.alpha0 exampleLine =
        .ok { Settings.init (1 / 20) with job := 0, trainSetFile := lit "w.csv", refNetFile := lit "w.bif" } := rfl
    rw [this] at hp
    cases hp; rfl
  subst e
  cases hw with
  | «structure» h1 h2 =>
    generalize hq' : dataPath exampleRuntime.source ++ _ ++ lit "_struct" = q at hq
    cases hq with
    | train h => exact absurd hq' (by decide +kernel)
    | reference h1 h2 => exact absurd hq' (by decide +kernel)
    | test h => exact absurd h (by decide)
    | distributions h => exact absurd h (by decide)
    | network h => exact absurd h (by decide)
  | parameters h => exact absurd h (by decide)
  | libsvm _ _ _ h => exact absurd h (by decide)
  | csv _ _ _ h => exact absurd h (by decide)

/-- Sampling from the command line: three samples, in both formats. -/
example : (program exampleRuntime [lit "-j", lit "5", lit "-m", lit "1", lit "-q", lit "3", lit "-f0", lit "w.xml"] exampleWorld).1 = .ok .nothing ∧
    (program exampleRuntime [lit "-j", lit "5", lit "-m", lit "1", lit "-q", lit "3", lit "-f0", lit "w.xml"] exampleWorld).2.files
      (lit "/x/FastPGM/dataset/sample_3_libsvm") = some (textOf [lit "1 1:1 ", lit "1 1:1 ", lit "1 1:1 "]) ∧
    (program exampleRuntime [lit "-j", lit "5", lit "-m", lit "1", lit "-q", lit "3", lit "-f0", lit "w.xml"] exampleWorld).2.files
      (lit "/x/FastPGM/dataset/sample_3_csv") = some (textOf [lit "Rain,Wet", lit "no,damp", lit "no,damp", lit "no,damp"]) := by
  decide +kernel

/-- C78, violation: `-j 4` without `-m 1` does nothing and reports success. -/
example : program exampleRuntime [lit "-j", lit "4", lit "-f2", lit "w.csv", lit "-f3", lit "w.csv"] exampleWorld = (.ok .nothing, exampleWorld) :=
  C78_silent (p := { Settings.init (1 / 20) with job := 4, trainSetFile := lit "w.csv", testSetFile := lit "w.csv" }) _ rfl (Or.inr (Or.inl ⟨rfl, by decide⟩))

/-- The data directory of an installation, and of a copy in another directory. -/
example : dataPath exampleSource = lit "/x/FastPGM/dataset/" := by decide +kernel
example : dataPath (lit "/x/FastPGM-master/src/fastpgm/main.cpp") = lit "/x/FastPGM-dataset/" := by decide +kernel
example : dataPath (lit "../src/fastpgm/main.cpp") = lit "../src/dataset/" := by decide +kernel

end FastPGM
