import Verif.Model.Dataset

/-!
Model of `Parameter` (src/fastpgm/Parameter.cpp, include/fastpgm/Parameter.h): the command line of the FastPGM program.

The arguments are `argv[1..argc-1]` as lists of characters without the terminating NUL.  `stod` is a parameter, and `alpha` has an
arbitrary type.
-/

namespace FastPGM

variable {α : Type}

/-- Parameter.h 12-38: the fields of `Parameter`. -/
structure Settings (α : Type) where
  job : Int
  method : Int
  numThreads : Int
  verbose : Int
  numSamples : Int
  maxUpdating : Int
  updatingInterval : Int
  propagationLength : Int
  heuristicUniform : Bool
  heuristicCutoff : Bool
  groupSize : Int
  alpha : α
  classVariable : Int
  saveStruct : Bool
  saveParam : Bool
  netFile : Str
  testSetFile : Str
  ptFile : Str
  trainSetFile : Str
  refNetFile : Str
deriving DecidableEq

/-- The characters of a string literal. -/
def lit (s : String) : Str := s.toList.map (fun c => (c.toNat : Int))

/-- Parameter.cpp 6-37 `Parameter()`; `alpha0` stands for the literal 0.05. -/
def Settings.init (alpha0 : α) : Settings α where
  job := 0
  method := 0
  numThreads := 1
  verbose := 1
  numSamples := 10000
  maxUpdating := 10
  updatingInterval := 2500
  propagationLength := 2
  heuristicUniform := false
  heuristicCutoff := false
  groupSize := 1
  alpha := alpha0
  classVariable := 0
  saveStruct := true
  saveParam := true
  netFile := lit "alarm/alarm.xml"
  testSetFile := lit "alarm/testing_alarm_1k_p20_csv"
  ptFile := lit "alarm/alarm_1k_pt"
  trainSetFile := lit "alarm/alarm_s5000"
  refNetFile := []

/-- `argv[i][k]`: the terminating NUL is readable, what follows it is not. -/
def charAt (s : Str) (k : Nat) : Except Fault Int :=
  if k = s.length then .ok 0 else rd s k

/-- `atoi`: no digits give 0; a number outside `int` is undefined behaviour. -/
def atoi (s : Str) : Except Fault Int :=
  let (neg, ds) := numberPart s
  let i := if neg then - digitsVal ds else digitsVal ds
  if inInt i then .ok i else .error .ub

/-- `i++` followed by a use of `argv[i]` as a string: beyond the last argument that is a null pointer. -/
def nextArg : List Str → Except Fault (Str × List Str)
  | [] => .error .ub
  | v :: rest => .ok (v, rest)

/-- Parameter.cpp 65-71: the switch of case `'f'`; `cur` is `argv[i]`. -/
def parseFile (p : Settings α) (cur : Str) (rest : List Str) : Except Fault (Settings α × List Str) := do
  let c ← charAt cur 2
  match c with
  | 48 => do let (v, rest) ← nextArg rest; return ({ p with netFile := v }, rest)
  | 49 => do let (v, rest) ← nextArg rest; return ({ p with refNetFile := v }, rest)
  | 50 => do let (v, rest) ← nextArg rest; return ({ p with trainSetFile := v }, rest)
  | 51 => do let (v, rest) ← nextArg rest; return ({ p with testSetFile := v }, rest)
  | 52 => do let (v, rest) ← nextArg rest; return ({ p with ptFile := v }, rest)
  | _ => return (p, rest)

/-- Parameter.cpp 56-63: the switch of case `'s'`, which falls through into case `'f'` with the value as `argv[i]`. -/
def parseSave (p : Settings α) (cur : Str) (rest : List Str) : Except Fault (Settings α × List Str) := do
  let c ← charAt cur 2
  match c with
  | 115 => do
    let (v, rest) ← nextArg rest
    let i ← atoi v
    parseFile (if i = 0 then { p with saveStruct := false } else p) v rest
  | 112 => do
    let (v, rest) ← nextArg rest
    let i ← atoi v
    parseFile (if i = 0 then { p with saveParam := false } else p) v rest
  | _ => parseFile p cur rest

/-- Parameter.cpp 42-75: one round of the loop on the argument `cur`; the remaining arguments are returned. -/
def parseOption (stod : Str → Except Fault α) (p : Settings α) (cur : Str) (rest : List Str) :
    Except Fault (Settings α × List Str) := do
  let c ← charAt cur 1
  match c with
  | 104 => .error .exit
  | 106 => do let (v, rest) ← nextArg rest; let i ← atoi v; return ({ p with job := i }, rest)
  | 109 => do let (v, rest) ← nextArg rest; let i ← atoi v; return ({ p with method := i }, rest)
  | 116 => do let (v, rest) ← nextArg rest; let i ← atoi v; return ({ p with numThreads := i }, rest)
  | 113 => do let (v, rest) ← nextArg rest; let i ← atoi v; return ({ p with numSamples := i }, rest)
  | 103 => do let (v, rest) ← nextArg rest; let i ← atoi v; return ({ p with groupSize := i }, rest)
  | 97 => do let (v, rest) ← nextArg rest; let a ← stod v; return ({ p with alpha := a }, rest)
  | 99 => do let (v, rest) ← nextArg rest; let i ← atoi v; return ({ p with classVariable := i }, rest)
  | 115 => parseSave p cur rest
  | 102 => parseFile p cur rest
  | _ => .error .exit

/-- Parameter.cpp 41-76: the loop, with a bound on the number of rounds; `parseParameters` gives it one round per argument. -/
def parseLoop (stod : Str → Except Fault α) : Nat → Settings α → List Str → Except Fault (Settings α)
  | 0, p, _ => .ok p
  | _ + 1, p, [] => .ok p
  | fuel + 1, p, cur :: rest => do
    let c ← charAt cur 0
    if c = 45 then
      let (p, rest) ← parseOption stod p cur rest
      parseLoop stod fuel p rest
    else .ok p

/-- Parameter.cpp 39-83 `ParseParameters`, on a freshly constructed `Parameter` (main.cpp 22-23). -/
def parseParameters (stod : Str → Except Fault α) (alpha0 : α) (args : List Str) : Except Fault (Settings α) := do
  let p ← parseLoop stod args.length (Settings.init alpha0) args
  if p.job < 0 ∨ p.job > 5 then .error .exit else .ok p

end FastPGM
