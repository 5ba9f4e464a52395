import Verif.Lemmas.Parameter

/-!
C54: the command line.
-/

namespace FastPGM

variable {α : Type}

/-- The remaining arguments do not start with an option. -/
def Spec.NoOption (rest : List Str) : Prop := ∀ a, rest.head? = some a → a.head? ≠ some 45

/-- C54: a line of options with their values sets every field to the last value given for it or leaves it at its default, whatever
follows the first argument that does not begin with a dash; a job outside 0..5 stops the program. -/
theorem C54_options_partial {stod : Str → Except Fault α} (a0 : α) {args rest : List Str} {rs : List (Spec.Request α)}
    (h : Spec.Line (fun s a => stod s = .ok a) args rs) (hr : Spec.NoOption rest) :
    (∀ j, (Spec.lastInt .job rs).getD 0 = j → 0 ≤ j → j ≤ 5 →
      ∃ p, parseParameters stod a0 (args ++ rest) = .ok p ∧ Spec.Asked a0 rs p) ∧
    (∀ j, (Spec.lastInt .job rs).getD 0 = j → ¬ (0 ≤ j ∧ j ≤ 5) → parseParameters stod a0 (args ++ rest) = .error .exit) := by
  have hA := asked_foldl a0 rs
  have e : parseParameters stod a0 (args ++ rest) = if (rs.foldl applyReq (Settings.init a0)).job < 0 ∨
      (rs.foldl applyReq (Settings.init a0)).job > 5 then .error .exit else .ok (rs.foldl applyReq (Settings.init a0)) := by
    rw [parseParameters_eq h, loopAll_stop hr]; rfl
  constructor
  · intro j hj h0 h5
    refine ⟨_, ?_, hA⟩
    rw [e, if_neg]
    rw [hA.job, hj]; omega
  · intro j hj hn
    rw [e, if_pos]
    rw [hA.job, hj]; omega

/-- The settings are determined by what `Spec.Asked` says about them. -/
theorem C54_asked_unique {a0 : α} {rs : List (Spec.Request α)} {p q : Settings α} (hp : Spec.Asked a0 rs p) (hq : Spec.Asked a0 rs q) :
    p = q := by
  obtain ⟨v, m, u, l, x, y⟩ := hp.fixed
  obtain ⟨v', m', u', l', x', y'⟩ := hq.fixed
  have s : p.saveStruct = q.saveStruct := by
    have := hp.saveStruct.trans hq.saveStruct.symm
    rcases e : p.saveStruct <;> rcases e' : q.saveStruct <;> simp_all
  have s' : p.saveParam = q.saveParam := by
    have := hp.saveParam.trans hq.saveParam.symm
    rcases e : p.saveParam <;> rcases e' : q.saveParam <;> simp_all
  have := hp.job.trans hq.job.symm
  have := hp.method.trans hq.method.symm
  have := hp.threads.trans hq.threads.symm
  have := hp.samples.trans hq.samples.symm
  have := hp.groupSize.trans hq.groupSize.symm
  have := hp.classVariable.trans hq.classVariable.symm
  have := hp.alpha.trans hq.alpha.symm
  have := hp.net.trans hq.net.symm
  have := hp.refNet.trans hq.refNet.symm
  have := hp.trainSet.trans hq.trainSet.symm
  have := hp.testSet.trans hq.testSet.symm
  have := hp.pt.trans hq.pt.symm
  cases p; cases q
  simp_all

/-- C54: after any line of options with values, `-h`, a lone dash or an option with a letter that is not one of `j m t q g a c s f`
stops the program; that includes the documented `-v`, `-u`, `-l` and `-d`. -/
theorem C54_unrecognized_exit {stod : Str → Except Fault α} (a0 : α) {args rest : List Str} {rs : List (Spec.Request α)}
    (h : Spec.Line (fun s a => stod s = .ok a) args rs) {opt : Str}
    (ho : opt = [45] ∨ ∃ c more, opt = 45 :: c :: more ∧ c ∉ [106, 109, 116, 113, 103, 97, 99, 115, 102]) :
    parseParameters stod a0 (args ++ opt :: rest) = .error .exit := by
  rw [parseParameters_eq h]
  rcases ho with rfl | ⟨c, more, rfl, hc⟩
  · rw [loopAll_dash rfl]; rfl
  · rw [loopAll_dash rfl]
    have : parseOption stod (rs.foldl applyReq (Settings.init a0)) (45 :: c :: more) rest = .error .exit := by
      simp only [List.mem_cons, List.not_mem_nil, or_false, not_or] at hc
      rw [parseOption, charAt_one, ok_bind]
      split <;> first | rfl | omega
    rw [this]; rfl

/-- C54: an option at the end of the line whose value is missing is undefined behaviour (a null pointer is read). -/
theorem C54_missing_value_ub {stod : Str → Except Fault α} (a0 : α) {args : List Str} {rs : List (Spec.Request α)}
    (h : Spec.Line (fun s a => stod s = .ok a) args rs) {c : Int} {more : Str}
    (hc : c ∈ [106, 109, 116, 113, 103, 97, 99] ∨ (c = 102 ∧ ∃ d m, more = d :: m ∧ 48 ≤ d ∧ d ≤ 52) ∨
      (c = 115 ∧ ∃ d m, more = d :: m ∧ (d = 115 ∨ d = 112 ∨ (48 ≤ d ∧ d ≤ 52)))) :
    parseParameters stod a0 (args ++ [45 :: c :: more]) = .error .ub := by
  rw [parseParameters_eq h, loopAll_dash rfl]
  have : parseOption stod (rs.foldl applyReq (Settings.init a0)) (45 :: c :: more) [] = .error .ub := by
    rcases hc with hc | ⟨rfl, d, m, rfl, h1, h2⟩ | ⟨rfl, d, m, rfl, hd⟩
    · simp only [List.mem_cons, List.not_mem_nil, or_false] at hc
      rcases hc with rfl | rfl | rfl | rfl | rfl | rfl | rfl <;> (rw [parseOption, charAt_one]; rfl)
    · have : d = 48 ∨ d = 49 ∨ d = 50 ∨ d = 51 ∨ d = 52 := by omega
      rcases this with rfl | rfl | rfl | rfl | rfl <;> (rw [parseOption, charAt_one, ok_bind]; simp only [parseFile, charAt_two]; rfl)
    · have : d = 48 ∨ d = 49 ∨ d = 50 ∨ d = 51 ∨ d = 52 ∨ d = 115 ∨ d = 112 := by omega
      rcases this with rfl | rfl | rfl | rfl | rfl | rfl | rfl <;>
        (rw [parseOption, charAt_one, ok_bind]; simp only [parseSave, parseFile, charAt_two]; rfl)
  rw [this]; rfl

/-- C54: an integer that does not fit in an `int` is undefined behaviour. -/
theorem C54_too_large_ub {stod : Str → Except Fault α} (a0 : α) {args rest : List Str} {rs : List (Spec.Request α)}
    (h : Spec.Line (fun s a => stod s = .ok a) args rs) (o : Spec.IntOption) {more v : Str} {i : Int} (hv : Spec.StartsWithInt v i)
    (out : ¬ (-2147483648 ≤ i ∧ i ≤ 2147483647)) :
    parseParameters stod a0 (args ++ (45 :: o.letter :: more) :: v :: rest) = .error .ub := by
  rw [parseParameters_eq h, loopAll_dash rfl]
  have : parseOption stod (rs.foldl applyReq (Settings.init a0)) (45 :: o.letter :: more) (v :: rest) = .error .ub := by
    have e := atoi_ub hv out
    cases o <;> (rw [parseOption, charAt_one]; simp only [Spec.IntOption.letter, nextArg, e, ok_bind]; rfl)
  rw [this]; rfl

/-- C54: a significance level that `stod` rejects ends the program with the exception of `stod`. -/
theorem C54_alpha_throw {stod : Str → Except Fault α} (a0 : α) {args rest : List Str} {rs : List (Spec.Request α)}
    (h : Spec.Line (fun s a => stod s = .ok a) args rs) {more v : Str} {e : Fault} (hv : stod v = .error e) :
    parseParameters stod a0 (args ++ (45 :: 97 :: more) :: v :: rest) = .error e := by
  rw [parseParameters_eq h, loopAll_dash rfl]
  have : parseOption stod (rs.foldl applyReq (Settings.init a0)) (45 :: 97 :: more) (v :: rest) = .error e := by
    rw [parseOption, charAt_one]; simp only [nextArg, hv, ok_bind]; rfl
  rw [this]; rfl

/-- The claim fails for the save options (finding): with the documented values `0` and `1`, or any value of one character, `-ss` and
`-sp` are undefined behaviour: case `'s'` has no `break`, and case `'f'` reads the value's third character, past its end. -/
theorem C54_save_value_ub {stod : Str → Except Fault α} (a0 : α) {args rest : List Str} {rs : List (Spec.Request α)}
    (h : Spec.Line (fun s a => stod s = .ok a) args rs) (o : Spec.SaveOption) {more v : Str} (hv : v.length ≤ 1) :
    parseParameters stod a0 (args ++ (45 :: 115 :: o.letter :: more) :: v :: rest) = .error .ub := by
  have far : ∀ p : Settings α, parseFile p v rest = .error .ub := by
    intro p
    have : charAt v 2 = .error .ub := by
      rw [charAt, if_neg (by omega)]
      rw [rd, List.getElem?_eq_none (by omega)]
    rw [parseFile, this]; rfl
  rw [parseParameters_eq h, loopAll_dash rfl]
  have : parseOption stod (rs.foldl applyReq (Settings.init a0)) (45 :: 115 :: o.letter :: more) (v :: rest) = .error .ub := by
    cases o <;>
      (rw [parseOption, charAt_one, ok_bind]
       simp only [Spec.SaveOption.letter, parseSave, charAt_two, nextArg, ok_bind]
       rcases e : atoi v with f | i
       · have : f = .ub := by
           rw [atoi] at e
           revert e
           generalize numberPart v = np
           obtain ⟨neg, ds⟩ := np
           intro e
           by_cases hin : inInt (if neg then - digitsVal ds else digitsVal ds) = true
           · simp only [] at e; rw [if_pos hin] at e; cases e
           · simp only [] at e; rw [if_neg hin] at e; cases e; rfl
         subst this; rfl
       · exact far _)
  rw [this]; rfl

/-- The claim fails for the save options (finding): a value whose third character is a digit from 0 to 4 makes the argument after it a
file name, as if `-f` and that digit had been given. -/
theorem C54_save_value_takes_file {stod : Str → Except Fault α} (a0 : α) {args rest : List Str} {rs : List (Spec.Request α)}
    (h : Spec.Line (fun s a => stod s = .ok a) args rs) (hr : Spec.NoOption rest) (o : Spec.SaveOption) (f : Spec.FileOption)
    {more tail name : Str} {a b i : Int} (hv : Spec.StartsWithInt (a :: b :: f.digit :: tail) i) (lo : -2147483648 ≤ i)
    (hi : i ≤ 2147483647) (hj : 0 ≤ (Spec.lastInt .job rs).getD 0 ∧ (Spec.lastInt .job rs).getD 0 ≤ 5) :
    ∃ p, parseParameters stod a0 (args ++ (45 :: 115 :: o.letter :: more) :: (a :: b :: f.digit :: tail) :: name :: rest) = .ok p ∧
      Spec.Asked a0 (rs ++ [.save o i, .file f name]) p := by
  have hA := asked_foldl a0 (rs ++ [.save o i, .file f name])
  refine ⟨_, ?_, hA⟩
  rw [parseParameters_eq h, loopAll_dash rfl]
  have e := atoi_ok hv lo hi
  have : parseOption stod (rs.foldl applyReq (Settings.init a0)) (45 :: 115 :: o.letter :: more)
      ((a :: b :: f.digit :: tail) :: name :: rest) =
        .ok ((rs ++ [Spec.Request.save o i, Spec.Request.file f name]).foldl applyReq (Settings.init a0), rest) := by
    rw [List.foldl_append]
    generalize rs.foldl applyReq (Settings.init a0) = p
    cases o <;> cases f <;>
      (rw [parseOption, charAt_one, ok_bind]
       simp only [Spec.FileOption.digit] at e
       simp only [Spec.SaveOption.letter, Spec.FileOption.digit, parseSave, charAt_two, nextArg, ok_bind, e, parseFile]
       rfl)
  rw [this, ok_bind]
  simp only []
  rw [loopAll_stop hr, ok_bind, if_neg]
  rw [hA.job]
  have : Spec.lastInt .job (rs ++ [Spec.Request.save o i, Spec.Request.file f name]) = Spec.lastInt .job rs := by
    rw [← List.singleton_append, ← List.append_assoc, lastInt_snoc, lastInt_snoc]
  rw [this]; omega

/-- Finding: `-s` followed by a digit from 0 to 4 is taken for the file option with that digit. -/
theorem C54_s_as_file {stod : Str → Except Fault α} (a0 : α) {args rest : List Str} {rs : List (Spec.Request α)}
    (h : Spec.Line (fun s a => stod s = .ok a) args rs) (f : Spec.FileOption) (more : Str) :
    parseParameters stod a0 (args ++ (45 :: 115 :: f.digit :: more) :: rest) =
      parseParameters stod a0 (args ++ (45 :: 102 :: f.digit :: more) :: rest) := by
  rw [parseParameters_eq h, parseParameters_eq h, loopAll_dash rfl, loopAll_dash rfl]
  have : ∀ p : Settings α, parseOption stod p (45 :: 115 :: f.digit :: more) rest = parseOption stod p (45 :: 102 :: f.digit :: more) rest := by
    intro p
    cases f <;> (rw [parseOption, parseOption, charAt_one, charAt_one, ok_bind, ok_bind]
                 simp only [Spec.FileOption.digit, parseSave, parseFile, charAt_two]; rfl)
  rw [this]

/-- Finding: `-f` and `-s` followed by any other character, or by nothing, are accepted and do nothing; what would be their value is
parsed as the next option. -/
theorem C54_silent {stod : Str → Except Fault α} (a0 : α) {args rest : List Str} {rs : List (Spec.Request α)}
    (h : Spec.Line (fun s a => stod s = .ok a) args rs) {c : Int} {more : Str} (hc : c = 102 ∨ c = 115)
    (hm : ∀ d, more.head? = some d → ¬ (48 ≤ d ∧ d ≤ 52) ∧ (c = 115 → d ≠ 115 ∧ d ≠ 112)) :
    parseParameters stod a0 (args ++ (45 :: c :: more) :: rest) = parseParameters stod a0 (args ++ rest) := by
  rw [parseParameters_eq h, parseParameters_eq h, loopAll_dash rfl]
  have other : ∀ p : Settings α, parseFile p (45 :: c :: more) rest = .ok (p, rest) := by
    intro p
    refine parseFile_other (by simp) ?_
    intro d hd
    cases more with
    | nil => simp at hd
    | cons x m => simp at hd; subst hd; exact (hm _ rfl).1
  have : ∀ p : Settings α, parseOption stod p (45 :: c :: more) rest = .ok (p, rest) := by
    intro p
    rcases hc with rfl | rfl
    · rw [parseOption, charAt_one, ok_bind]; exact other p
    · rw [parseOption, charAt_one, ok_bind]
      show parseSave p _ rest = _
      cases more with
      | nil => rfl
      | cons d m =>
        have := (hm d rfl).2 rfl
        rw [parseSave, charAt_two, ok_bind]
        split
        · exact absurd rfl this.1
        · exact absurd rfl this.2
        · exact other p
  rw [this]; rfl

/-! ### The hypotheses can be met -/

/-- A `stod` for the examples: the length of the text. -/
private def lenStod (s : Str) : Except Fault Nat := .ok s.length

/-- `-j 2 -t 16 -f0 a.xml -ss 00 -a 0.01 -t 8 file`: the last `-t` wins, the structure is not saved, the trailing argument is ignored. -/
example : ∃ p, parseParameters lenStod 99 ([lit "-j", lit "2", lit "-t", lit "16", lit "-f0", lit "a.xml", lit "-ss", lit "00", lit "-a",
    lit "0.01", lit "-t", lit "8"] ++ [lit "file"]) = .ok p ∧
    Spec.Asked 99 [.int .job 2, .int .threads 16, .file .net (lit "a.xml"), .save .structure_ 0, .alpha 4, .int .threads 8] p := by
  have num : ∀ (v : Str) (i : Int), (∀ c ∈ v, Spec.Digit c) → v ≠ [] → i = Spec.numeral v → Spec.StartsWithInt v i :=
    fun v i hd hne hi => ⟨[], v, [], by simp, hne, hd, by simp, Or.inl ⟨by simp, hi⟩⟩
  refine (C54_options_partial 99 ?_ ?_).1 2 (by decide +kernel) (by decide) (by decide)
  · refine .cons ⟨⟨[], by decide +kernel⟩, Or.inl (num _ _ ?_ (by decide +kernel) (by decide +kernel)), by decide, by decide⟩
      (.cons ⟨⟨[], by decide +kernel⟩, Or.inl (num _ _ ?_ (by decide +kernel) (by decide +kernel)), by decide, by decide⟩
      (.cons ⟨⟨[], by decide +kernel⟩, rfl⟩
      (.cons ⟨⟨[], by decide +kernel⟩, Or.inl (num _ _ ?_ (by decide +kernel) (by decide +kernel)), by decide, by decide, by decide +kernel,
        ?_⟩
      (.cons ⟨⟨[], by decide +kernel⟩, by decide +kernel⟩
      (.cons ⟨⟨[], by decide +kernel⟩, Or.inl (num _ _ ?_ (by decide +kernel) (by decide +kernel)), by decide, by decide⟩ .nil)))))
    all_goals first
      | (unfold Spec.Digit; decide +kernel)
      | (intro c hc
         have : (lit "00")[2]? = none := by decide +kernel
         rw [this] at hc; cases hc)
  · intro a ha
    cases ha
    decide +kernel

/-- The whole run, computed. -/
example : parseParameters lenStod 99 [lit "-j", lit "2", lit "-ss", lit "0", lit "-f0", lit "a.xml"] = .error .ub := by decide +kernel

/-- `-sp 010 x` sets the file of the network. -/
example : (parseParameters lenStod 99 [lit "-sp", lit "010", lit "x"]).toOption.map (fun p => (p.netFile, p.saveParam)) =
    some (lit "x", true) := by decide +kernel

/-- The documented `-v 2` stops the program. -/
example : parseParameters lenStod 99 ([] ++ lit "-v" :: [lit "2"]) = .error .exit :=
  C54_unrecognized_exit 99 .nil (Or.inr ⟨118, [], by decide +kernel, by decide⟩)

/-- `-t` at the end of the line. -/
example : parseParameters lenStod 99 ([] ++ [[45, 116]]) = .error .ub := C54_missing_value_ub 99 .nil (Or.inl (by decide))

/-- `-t abc` means no threads. -/
example : Spec.StartsWithNoInt (lit "abc") := ⟨[], [], lit "abc", by decide +kernel, by simp, Or.inl rfl, by
  intro c hc
  have : (lit "abc").head? = some 97 := by decide +kernel
  rw [this] at hc; cases hc
  unfold Spec.Digit Spec.White
  exact ⟨by decide, fun _ => ⟨by decide, by decide, by decide⟩⟩⟩

end FastPGM
