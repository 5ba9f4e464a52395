import Verif.Model.Parameter

/-!
Specification side of the command line: numerals, options with their values, and the settings they ask for.
-/

namespace FastPGM.Spec

open FastPGM

/-- The value of a decimal numeral, most significant digit first. -/
def numeral : Str → Int
  | [] => 0
  | d :: ds => (d - 48) * 10 ^ ds.length + numeral ds

/-- White space: the characters 9 to 13 and the blank. -/
def White (c : Int) : Prop := (9 ≤ c ∧ c ≤ 13) ∨ c = 32

/-- A decimal digit. -/
def Digit (c : Int) : Prop := 48 ≤ c ∧ c ≤ 57

/-- The text starts with the integer `i`: white space, perhaps a sign, at least one digit, and then no further digit. -/
def StartsWithInt (v : Str) (i : Int) : Prop :=
  ∃ ws ds tail : Str, (∀ c ∈ ws, White c) ∧ ds ≠ [] ∧ (∀ c ∈ ds, Digit c) ∧ (∀ c, tail.head? = some c → ¬ Digit c) ∧
    ((v = ws ++ ds ++ tail ∧ i = numeral ds) ∨ (v = ws ++ 43 :: ds ++ tail ∧ i = numeral ds) ∨
      (v = ws ++ 45 :: ds ++ tail ∧ i = - numeral ds))

/-- The text does not start with an integer: after white space and perhaps a sign there is no digit. -/
def StartsWithNoInt (v : Str) : Prop :=
  ∃ ws sgn tail : Str, v = ws ++ sgn ++ tail ∧ (∀ c ∈ ws, White c) ∧ (sgn = [] ∨ sgn = [43] ∨ sgn = [45]) ∧
    (∀ c, tail.head? = some c → ¬ Digit c ∧ (sgn = [] → ¬ White c ∧ c ≠ 43 ∧ c ≠ 45))

/-- The options that take an integer. -/
inductive IntOption where
  | job | method | threads | samples | groupSize | classVariable
deriving DecidableEq

/-- The letter of an integer option: `j`, `m`, `t`, `q`, `g`, `c`. -/
def IntOption.letter : IntOption → Int
  | .job => 106
  | .method => 109
  | .threads => 116
  | .samples => 113
  | .groupSize => 103
  | .classVariable => 99

/-- The options that take a file name. -/
inductive FileOption where
  | net | refNet | trainSet | testSet | pt
deriving DecidableEq

/-- The digit of a file option: `0` to `4`. -/
def FileOption.digit : FileOption → Int
  | .net => 48
  | .refNet => 49
  | .trainSet => 50
  | .testSet => 51
  | .pt => 52

/-- What to save. -/
inductive SaveOption where
  | structure_ | parameters
deriving DecidableEq

/-- The letter of a save option: `s`, `p`. -/
def SaveOption.letter : SaveOption → Int
  | .structure_ => 115
  | .parameters => 112

/-- What one option with its value asks for. -/
inductive Request (α : Type) where
  | int (o : IntOption) (i : Int)
  | alpha (a : α)
  | file (o : FileOption) (name : Str)
  | save (o : SaveOption) (i : Int)

/-- The option `opt` with the value `v` asks for `r`.  Whatever follows the option's letters does not matter.  The value of a save
option has at least two characters, and its third is none of the digits 0 to 4. -/
def Pair {α : Type} (reads : Str → α → Prop) (opt v : Str) : Request α → Prop
  | .int o i => (∃ more, opt = 45 :: o.letter :: more) ∧ (StartsWithInt v i ∨ (StartsWithNoInt v ∧ i = 0)) ∧
      -2147483648 ≤ i ∧ i ≤ 2147483647
  | .alpha a => (∃ more, opt = 45 :: 97 :: more) ∧ reads v a
  | .file o name => (∃ more, opt = 45 :: 102 :: o.digit :: more) ∧ name = v
  | .save o i => (∃ more, opt = 45 :: 115 :: o.letter :: more) ∧ (StartsWithInt v i ∨ (StartsWithNoInt v ∧ i = 0)) ∧
      -2147483648 ≤ i ∧ i ≤ 2147483647 ∧ 2 ≤ v.length ∧ (∀ c, v[2]? = some c → ¬ (48 ≤ c ∧ c ≤ 52) )

/-- The arguments are options with their values, asking for the given requests. -/
inductive Line {α : Type} (reads : Str → α → Prop) : List Str → List (Request α) → Prop
  | nil : Line reads [] []
  | cons {opt v : Str} {args : List Str} {r : Request α} {rs : List (Request α)} :
      Pair reads opt v r → Line reads args rs → Line reads (opt :: v :: args) (r :: rs)

/-- The last value asked for an integer option, if any. -/
def lastInt {α : Type} (o : IntOption) (rs : List (Request α)) : Option Int :=
  (rs.filterMap (fun r => match r with | .int o' i => if o' = o then some i else none | _ => none)).getLast?

/-- The last file name asked for, if any. -/
def lastFile {α : Type} (o : FileOption) (rs : List (Request α)) : Option Str :=
  (rs.filterMap (fun r => match r with | .file o' s => if o' = o then some s else none | _ => none)).getLast?

/-- The last `alpha` asked for, if any. -/
def lastAlpha {α : Type} (rs : List (Request α)) : Option α :=
  (rs.filterMap (fun r => match r with | .alpha a => some a | _ => none)).getLast?

/-- Some request gives a save option the value 0. -/
def SwitchedOff {α : Type} (o : SaveOption) (rs : List (Request α)) : Prop := Request.save o 0 ∈ rs

/-- The settings `p` are what the requests ask for: every field has the last value asked for or its default. -/
structure Asked {α : Type} (a0 : α) (rs : List (Request α)) (p : Settings α) : Prop where
  job : p.job = (lastInt .job rs).getD 0
  method : p.method = (lastInt .method rs).getD 0
  threads : p.numThreads = (lastInt .threads rs).getD 1
  samples : p.numSamples = (lastInt .samples rs).getD 10000
  groupSize : p.groupSize = (lastInt .groupSize rs).getD 1
  classVariable : p.classVariable = (lastInt .classVariable rs).getD 0
  alpha : p.alpha = (lastAlpha rs).getD a0
  net : p.netFile = (lastFile .net rs).getD (lit "alarm/alarm.xml")
  refNet : p.refNetFile = (lastFile .refNet rs).getD []
  trainSet : p.trainSetFile = (lastFile .trainSet rs).getD (lit "alarm/alarm_s5000")
  testSet : p.testSetFile = (lastFile .testSet rs).getD (lit "alarm/testing_alarm_1k_p20_csv")
  pt : p.ptFile = (lastFile .pt rs).getD (lit "alarm/alarm_1k_pt")
  saveStruct : p.saveStruct = false ↔ SwitchedOff .structure_ rs
  saveParam : p.saveParam = false ↔ SwitchedOff .parameters rs
  fixed : p.verbose = 1 ∧ p.maxUpdating = 10 ∧ p.updatingInterval = 2500 ∧ p.propagationLength = 2 ∧ p.heuristicUniform = false ∧
    p.heuristicCutoff = false

end FastPGM.Spec
