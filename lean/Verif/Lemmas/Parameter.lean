import Verif.Model.Parameter
import Verif.Spec.Parameter
import Verif.Lemmas.Dataset3
import Mathlib.Data.List.Induction
import Mathlib.Tactic.Ring

/-!
Lemmas on command line parsing.
-/

namespace FastPGM

variable {α : Type}

theorem digitsVal_from (ds : Str) (a : Int) :
    ds.foldl (fun a c => a * 10 + (c - 48)) a = a * 10 ^ ds.length + Spec.numeral ds := by
  induction ds generalizing a with
  | nil => simp [Spec.numeral]
  | cons d ds ih => rw [List.foldl_cons, ih, Spec.numeral, List.length_cons]; ring

theorem digitsVal_numeral (ds : Str) : digitsVal ds = Spec.numeral ds := by
  rw [digitsVal, digitsVal_from]; simp

theorem isSpace_iff (c : Int) : isSpace c = true ↔ Spec.White c := by
  simp [isSpace, Spec.White]

theorem isDigit_iff (c : Int) : isDigit c = true ↔ Spec.Digit c := by
  simp [isDigit, Spec.Digit]

theorem dropWhile_white {ws s : Str} (h : ∀ c ∈ ws, Spec.White c) (hs : ∀ c, s.head? = some c → ¬ Spec.White c) :
    (ws ++ s).dropWhile isSpace = s := by
  induction ws with
  | nil =>
    rw [List.nil_append]
    cases s with
    | nil => rfl
    | cons c s =>
      have : isSpace c = false := by
        rw [Bool.eq_false_iff, Ne, isSpace_iff]; exact hs c rfl
      rw [List.dropWhile_cons, this]; rfl
  | cons w ws ih =>
    rw [List.cons_append, List.dropWhile_cons, if_pos ((isSpace_iff w).2 (h w (by simp)))]
    exact ih (fun c hc => h c (by simp [hc]))

theorem takeWhile_digit_run {ds s : Str} (h : ∀ c ∈ ds, Spec.Digit c) (hs : ∀ c, s.head? = some c → ¬ Spec.Digit c) :
    (ds ++ s).takeWhile isDigit = ds := by
  induction ds with
  | nil =>
    rw [List.nil_append]
    cases s with
    | nil => rfl
    | cons c s =>
      have : isDigit c = false := by
        rw [Bool.eq_false_iff, Ne, isDigit_iff]; exact hs c rfl
      rw [List.takeWhile_cons, this]; rfl
  | cons w ws ih =>
    rw [List.cons_append, List.takeWhile_cons, if_pos ((isDigit_iff w).2 (h w (by simp)))]
    exact congrArg _ (ih (fun c hc => h c (by simp [hc])))

theorem numberPart_plain {ws s : Str} (h : ∀ c ∈ ws, Spec.White c)
    (hs : ∀ c, s.head? = some c → ¬ Spec.White c ∧ c ≠ 43 ∧ c ≠ 45) : numberPart (ws ++ s) = (false, s.takeWhile isDigit) := by
  rw [numberPart, dropWhile_white h (fun c hc => (hs c hc).1)]
  cases s with
  | nil => rfl
  | cons c s =>
    have := hs c rfl
    split <;> simp_all

theorem numberPart_plus {ws s : Str} (h : ∀ c ∈ ws, Spec.White c) : numberPart (ws ++ 43 :: s) = (false, s.takeWhile isDigit) := by
  rw [numberPart, dropWhile_white h (fun c hc => by cases hc; simp [Spec.White])]; rfl

theorem numberPart_minus {ws s : Str} (h : ∀ c ∈ ws, Spec.White c) : numberPart (ws ++ 45 :: s) = (true, s.takeWhile isDigit) := by
  rw [numberPart, dropWhile_white h (fun c hc => by cases hc; simp [Spec.White])]; rfl

theorem atoi_ok {v : Str} {i : Int} (h : Spec.StartsWithInt v i) (lo : -2147483648 ≤ i) (hi : i ≤ 2147483647) : atoi v = .ok i := by
  obtain ⟨ws, ds, tail, hw, hne, hd, ht, e⟩ := h
  have inr : inInt i = true := by simp [inInt, lo, hi]
  rcases e with ⟨rfl, rfl⟩ | ⟨rfl, rfl⟩ | ⟨rfl, rfl⟩
  · rw [List.append_assoc, atoi, numberPart_plain hw, takeWhile_digit_run hd ht]
    · simp only [Bool.false_eq_true, if_false, digitsVal_numeral]
      rw [if_pos inr]
    · intro c hc
      cases ds with
      | nil => exact absurd rfl hne
      | cons d ds =>
        cases hc
        have := hd c (by simp)
        unfold Spec.Digit at this
        refine ⟨?_, by omega, by omega⟩
        unfold Spec.White; omega
  · rw [List.append_assoc, List.cons_append, atoi, numberPart_plus hw, takeWhile_digit_run hd ht]
    simp only [Bool.false_eq_true, if_false, digitsVal_numeral]
    rw [if_pos inr]
  · rw [List.append_assoc, List.cons_append, atoi, numberPart_minus hw, takeWhile_digit_run hd ht]
    simp only [if_true, digitsVal_numeral]
    rw [if_pos inr]

theorem atoi_ub {v : Str} {i : Int} (h : Spec.StartsWithInt v i) (out : ¬ (-2147483648 ≤ i ∧ i ≤ 2147483647)) : atoi v = .error .ub := by
  obtain ⟨ws, ds, tail, hw, hne, hd, ht, e⟩ := h
  have inr : ¬ inInt i = true := by simpa [inInt] using out
  rcases e with ⟨rfl, rfl⟩ | ⟨rfl, rfl⟩ | ⟨rfl, rfl⟩
  · rw [List.append_assoc, atoi, numberPart_plain hw, takeWhile_digit_run hd ht]
    · simp only [Bool.false_eq_true, if_false, digitsVal_numeral]
      rw [if_neg inr]
    · intro c hc
      cases ds with
      | nil => exact absurd rfl hne
      | cons d ds =>
        cases hc
        have := hd c (by simp)
        unfold Spec.Digit at this
        refine ⟨?_, by omega, by omega⟩
        unfold Spec.White; omega
  · rw [List.append_assoc, List.cons_append, atoi, numberPart_plus hw, takeWhile_digit_run hd ht]
    simp only [Bool.false_eq_true, if_false, digitsVal_numeral]
    rw [if_neg inr]
  · rw [List.append_assoc, List.cons_append, atoi, numberPart_minus hw, takeWhile_digit_run hd ht]
    simp only [if_true, digitsVal_numeral]
    rw [if_neg inr]

theorem atoi_none {v : Str} (h : Spec.StartsWithNoInt v) : atoi v = .ok 0 := by
  obtain ⟨ws, sgn, tail, rfl, hw, hs, ht⟩ := h
  have h0 : tail.takeWhile isDigit = [] := takeWhile_digit_run (ds := []) (by simp) (fun c hc => (ht c hc).1)
  rcases hs with rfl | rfl | rfl
  · rw [List.append_nil, atoi, numberPart_plain hw (fun c hc => (ht c hc).2 rfl), h0]; rfl
  · rw [List.append_assoc, List.singleton_append, atoi, numberPart_plus hw, h0]; rfl
  · rw [List.append_assoc, List.singleton_append, atoi, numberPart_minus hw, h0]; rfl

theorem atoi_either {v : Str} {i : Int} (h : Spec.StartsWithInt v i ∨ (Spec.StartsWithNoInt v ∧ i = 0)) (lo : -2147483648 ≤ i)
    (hi : i ≤ 2147483647) : atoi v = .ok i := by
  rcases h with h | ⟨h, rfl⟩
  · exact atoi_ok h lo hi
  · exact atoi_none h

/-- What a request does to the settings. -/
def applyReq (p : Settings α) : Spec.Request α → Settings α
  | .int .job i => { p with job := i }
  | .int .method i => { p with method := i }
  | .int .threads i => { p with numThreads := i }
  | .int .samples i => { p with numSamples := i }
  | .int .groupSize i => { p with groupSize := i }
  | .int .classVariable i => { p with classVariable := i }
  | .alpha a => { p with alpha := a }
  | .file .net s => { p with netFile := s }
  | .file .refNet s => { p with refNetFile := s }
  | .file .trainSet s => { p with trainSetFile := s }
  | .file .testSet s => { p with testSetFile := s }
  | .file .pt s => { p with ptFile := s }
  | .save .structure_ i => if i = 0 then { p with saveStruct := false } else p
  | .save .parameters i => if i = 0 then { p with saveParam := false } else p

theorem charAt_zero (c : Int) (s : Str) : charAt (c :: s) 0 = .ok c := rfl

theorem charAt_one (b c : Int) (s : Str) : charAt (b :: c :: s) 1 = .ok c := by
  rw [charAt, if_neg (by simp)]; rfl

theorem charAt_two (b c d : Int) (s : Str) : charAt (b :: c :: d :: s) 2 = .ok d := by
  rw [charAt, if_neg (by simp)]; rfl

theorem parseFile_other {p : Settings α} {cur : Str} {rest : List Str} (h2 : 2 ≤ cur.length)
    (h : ∀ c, cur[2]? = some c → ¬ (48 ≤ c ∧ c ≤ 52)) : parseFile p cur rest = .ok (p, rest) := by
  match cur, h2 with
  | [a, b], _ => rfl
  | a :: b :: c :: s, _ =>
    have := h c rfl
    rw [parseFile, charAt_two]
    show (match c with | 48 => _ | 49 => _ | 50 => _ | 51 => _ | 52 => _ | _ => _) = _
    split <;> first | omega | rfl

theorem parseOption_pair {stod : Str → Except Fault α} {opt v : Str} {r : Spec.Request α}
    (h : Spec.Pair (fun s a => stod s = .ok a) opt v r) (p : Settings α) (rest : List Str) :
    parseOption stod p opt (v :: rest) = .ok (applyReq p r, rest) := by
  cases r with
  | int o i =>
    obtain ⟨⟨more, rfl⟩, hi, lo, hi'⟩ := h
    have e := atoi_either hi lo hi'
    cases o <;> (rw [parseOption, charAt_one]; simp only [Spec.IntOption.letter, nextArg, e, ok_bind]; rfl)
  | alpha a =>
    obtain ⟨⟨more, rfl⟩, e⟩ := h
    rw [parseOption, charAt_one]; simp only [nextArg, e, ok_bind]; rfl
  | file o s =>
    obtain ⟨⟨more, rfl⟩, rfl⟩ := h
    cases o <;> (rw [parseOption, charAt_one]; simp only [Spec.FileOption.digit, ok_bind, parseFile, charAt_two, nextArg]; rfl)
  | save o i =>
    obtain ⟨⟨more, rfl⟩, hi, lo, hi', h2, h3⟩ := h
    have e := atoi_either hi lo hi'
    cases o <;>
      (rw [parseOption, charAt_one]
       simp only [Spec.SaveOption.letter, ok_bind, parseSave, charAt_two, nextArg, e]
       rw [parseFile_other h2 h3]; rfl)

theorem Spec.Pair.dash {reads : Str → α → Prop} {opt v : Str} {r : Spec.Request α} (h : Spec.Pair reads opt v r) :
    charAt opt 0 = .ok 45 := by
  cases r <;> (obtain ⟨⟨more, rfl⟩, _⟩ := h; rfl)

theorem nextArg_ok {rest rest' : List Str} {v : Str} (h : nextArg rest = .ok (v, rest')) : rest = v :: rest' := by
  cases rest with
  | nil => simp [nextArg] at h
  | cons a r => simp [nextArg] at h; rw [h.1, h.2]

theorem parseFile_length {p p' : Settings α} {cur : Str} {rest rest' : List Str} (h : parseFile p cur rest = .ok (p', rest')) :
    rest'.length ≤ rest.length := by
  rw [parseFile] at h
  obtain ⟨c, _, h⟩ := ok_of_bind h
  split at h
  all_goals first
    | (obtain ⟨⟨v, r⟩, e, h⟩ := ok_of_bind h; cases h; rw [nextArg_ok e]; simp)
    | (cases h; exact Nat.le_refl _)

theorem parseSave_length {p p' : Settings α} {cur : Str} {rest rest' : List Str} (h : parseSave p cur rest = .ok (p', rest')) :
    rest'.length ≤ rest.length := by
  rw [parseSave] at h
  obtain ⟨c, _, h⟩ := ok_of_bind h
  split at h
  all_goals first
    | (obtain ⟨⟨v, r⟩, e, h⟩ := ok_of_bind h
       obtain ⟨i, _, h⟩ := ok_of_bind h
       have := parseFile_length h
       rw [nextArg_ok e]; simp only [List.length_cons]; omega)
    | exact parseFile_length h

theorem parseOption_length {stod : Str → Except Fault α} {p p' : Settings α} {cur : Str} {rest rest' : List Str}
    (h : parseOption stod p cur rest = .ok (p', rest')) : rest'.length ≤ rest.length := by
  rw [parseOption] at h
  obtain ⟨c, _, h⟩ := ok_of_bind h
  split at h
  all_goals first
    | (cases h)
    | (obtain ⟨⟨v, r⟩, e, h⟩ := ok_of_bind h
       obtain ⟨i, _, h⟩ := ok_of_bind h
       cases h; rw [nextArg_ok e]; simp)
    | exact parseSave_length h
    | exact parseFile_length h

theorem parseLoop_fuel {stod : Str → Except Fault α} : ∀ (n m : Nat) (p : Settings α) (args : List Str), args.length ≤ n →
    args.length ≤ m → parseLoop stod n p args = parseLoop stod m p args
  | 0, m, p, args, h, _ => by
    have : args = [] := List.length_eq_zero_iff.1 (by omega)
    subst this
    cases m <;> rfl
  | n + 1, 0, p, args, _, h => by
    have : args = [] := List.length_eq_zero_iff.1 (by omega)
    subst this; rfl
  | n + 1, m + 1, p, [], _, _ => rfl
  | n + 1, m + 1, p, cur :: rest, h, h' => by
    simp only [List.length_cons] at h h'
    rw [parseLoop, parseLoop]
    rcases charAt cur 0 with e | c
    · rfl
    · rw [ok_bind, ok_bind]
      by_cases hc : c = 45
      · rw [if_pos hc, if_pos hc]
        rcases e : parseOption stod p cur rest with e' | ⟨p', rest'⟩
        · rfl
        · have := parseOption_length e
          exact parseLoop_fuel n m p' rest' (by omega) (by omega)
      · rw [if_neg hc, if_neg hc]

/-- The loop with exactly the rounds `parseParameters` gives it. -/
def loopAll (stod : Str → Except Fault α) (p : Settings α) (args : List Str) : Except Fault (Settings α) :=
  parseLoop stod args.length p args

theorem loopAll_dash {stod : Str → Except Fault α} {p : Settings α} {cur : Str} {rest : List Str} (h : charAt cur 0 = .ok 45) :
    loopAll stod p (cur :: rest) = (do
      let (p, rest) ← parseOption stod p cur rest
      loopAll stod p rest) := by
  rw [loopAll, List.length_cons, parseLoop, h, ok_bind, if_pos rfl]
  rcases e : parseOption stod p cur rest with e' | ⟨p', rest'⟩
  · rfl
  · have := parseOption_length e
    exact parseLoop_fuel _ _ p' rest' (by omega) (Nat.le_refl _)

theorem loopAll_stop {stod : Str → Except Fault α} {p : Settings α} {rest : List Str}
    (h : ∀ a, rest.head? = some a → a.head? ≠ some 45) : loopAll stod p rest = .ok p := by
  cases rest with
  | nil => rfl
  | cons a r =>
    have := h a rfl
    rw [loopAll, List.length_cons, parseLoop]
    cases a with
    | nil => rfl
    | cons c s =>
      rw [charAt_zero, ok_bind, if_neg]
      intro hc; subst hc; exact this rfl

theorem loopAll_line {stod : Str → Except Fault α} {args : List Str} {rs : List (Spec.Request α)}
    (h : Spec.Line (fun s a => stod s = .ok a) args rs) (p : Settings α) (rest : List Str) :
    loopAll stod p (args ++ rest) = loopAll stod (rs.foldl applyReq p) rest := by
  induction h generalizing p with
  | nil => rfl
  | cons hp _ ih =>
    rw [List.cons_append, List.cons_append, loopAll_dash hp.dash, parseOption_pair hp, ok_bind, List.foldl_cons]
    exact ih _

theorem lastInt_snoc (o : Spec.IntOption) (rs : List (Spec.Request α)) (r : Spec.Request α) :
    Spec.lastInt o (rs ++ [r]) = match r with | .int o' i => if o' = o then some i else Spec.lastInt o rs | _ => Spec.lastInt o rs := by
  unfold Spec.lastInt
  rw [List.filterMap_append]
  cases r with
  | int o' i => by_cases h : o' = o <;> simp [h]
  | _ => simp

theorem lastFile_snoc (o : Spec.FileOption) (rs : List (Spec.Request α)) (r : Spec.Request α) :
    Spec.lastFile o (rs ++ [r]) = match r with | .file o' i => if o' = o then some i else Spec.lastFile o rs | _ => Spec.lastFile o rs := by
  unfold Spec.lastFile
  rw [List.filterMap_append]
  cases r with
  | file o' i => by_cases h : o' = o <;> simp [h]
  | _ => simp

theorem lastAlpha_snoc (rs : List (Spec.Request α)) (r : Spec.Request α) :
    Spec.lastAlpha (rs ++ [r]) = match r with | .alpha a => some a | _ => Spec.lastAlpha rs := by
  unfold Spec.lastAlpha
  rw [List.filterMap_append]
  cases r <;> simp

theorem asked_foldl (a0 : α) (rs : List (Spec.Request α)) : Spec.Asked a0 rs (rs.foldl applyReq (Settings.init a0)) := by
  induction rs using List.reverseRecOn with
  | nil => constructor <;> first | rfl | simp [Settings.init, Spec.SwitchedOff]
  | append_singleton rs r ih =>
    rw [List.foldl_append, List.foldl_cons, List.foldl_nil]
    generalize rs.foldl applyReq (Settings.init a0) = p at ih
    cases r with
    | int o i =>
      cases o <;> (constructor <;> simp [applyReq, lastInt_snoc, lastFile_snoc, lastAlpha_snoc, Spec.SwitchedOff, ih.job, ih.method,
        ih.threads, ih.samples, ih.groupSize, ih.classVariable, ih.alpha, ih.net, ih.refNet, ih.trainSet, ih.testSet, ih.pt,
        ih.saveStruct, ih.saveParam, ih.fixed])
    | alpha a =>
      constructor <;> simp [applyReq, lastInt_snoc, lastFile_snoc, lastAlpha_snoc, Spec.SwitchedOff, ih.job, ih.method,
        ih.threads, ih.samples, ih.groupSize, ih.classVariable, ih.net, ih.refNet, ih.trainSet, ih.testSet, ih.pt,
        ih.saveStruct, ih.saveParam, ih.fixed]
    | file o s =>
      cases o <;> (constructor <;> simp [applyReq, lastInt_snoc, lastFile_snoc, lastAlpha_snoc, Spec.SwitchedOff, ih.job, ih.method,
        ih.threads, ih.samples, ih.groupSize, ih.classVariable, ih.alpha, ih.net, ih.refNet, ih.trainSet, ih.testSet, ih.pt,
        ih.saveStruct, ih.saveParam, ih.fixed])
    | save o i =>
      by_cases h0 : i = 0
      · subst h0
        cases o <;> (constructor <;> simp [applyReq, lastInt_snoc, lastFile_snoc, lastAlpha_snoc, Spec.SwitchedOff, ih.job, ih.method,
          ih.threads, ih.samples, ih.groupSize, ih.classVariable, ih.alpha, ih.net, ih.refNet, ih.trainSet, ih.testSet, ih.pt,
          ih.saveStruct, ih.saveParam, ih.fixed])
      · have h0' : ¬ 0 = i := fun e => h0 e.symm
        cases o <;> (constructor <;> simp [applyReq, h0, h0', lastInt_snoc, lastFile_snoc, lastAlpha_snoc, Spec.SwitchedOff, ih.job,
          ih.method, ih.threads, ih.samples, ih.groupSize, ih.classVariable, ih.alpha, ih.net, ih.refNet, ih.trainSet, ih.testSet,
          ih.pt, ih.saveStruct, ih.saveParam, ih.fixed])

theorem parseParameters_eq {stod : Str → Except Fault α} {a0 : α} {args rest : List Str} {rs : List (Spec.Request α)}
    (h : Spec.Line (fun s a => stod s = .ok a) args rs) :
    parseParameters stod a0 (args ++ rest) = (do
      let p ← loopAll stod (rs.foldl applyReq (Settings.init a0)) rest
      if p.job < 0 ∨ p.job > 5 then .error .exit else .ok p) := by
  rw [parseParameters, ← loopAll_line h]; rfl

end FastPGM
