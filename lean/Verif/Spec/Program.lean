import Verif.Model.Program

/-!
Specification of what the program may do to the files (C78), independent of the model of the program.
-/

namespace FastPGM

/-- Writing a file, or not. -/
def World.putIf (w : World) (path : Str) : Option Str → World
  | some t => w.put path t
  | none => w

namespace Spec

variable {K α : Type}

/-- A path: the directory before the last slash and the name after it. -/
def SplitsPath (path dir : Str) : Prop := ∃ name, (47 : Int) ∉ name ∧ path = dir ++ 47 :: name

/-- The files a run with the given options may create or change: the structure file and the parameter file beside the training file, or the
samples beside the network file.  `d` is the directory of the data. -/
inductive MayWrite (d : Str) (p : Settings K) : Str → Prop
  | structure : (p.job = 0 ∧ p.method = 0 ∨ p.job = 1 ∧ p.method = 0 ∨ p.job = 4 ∧ p.method = 1) → p.saveStruct = true →
      MayWrite d p (d ++ p.trainSetFile ++ lit "_struct")
  | parameters : (p.job = 1 ∧ p.method = 0 ∨ p.job = 4 ∧ p.method = 1) → p.saveParam = true → MayWrite d p (d ++ p.trainSetFile ++ lit "_param")
  | libsvm (dir : Str) (n : Nat) : SplitsPath (d ++ p.netFile) dir → p.job = 5 → (p.method = 0 ∨ p.method = 1) → p.numSamples = n →
      MayWrite d p (dir ++ lit "/sample_" ++ intToStr n ++ lit "_libsvm")
  | csv (dir : Str) (n : Nat) : SplitsPath (d ++ p.netFile) dir → p.job = 5 → p.method = 1 → p.numSamples = n →
      MayWrite d p (dir ++ lit "/sample_" ++ intToStr n ++ lit "_csv")

/-- The files a run with the given options reads. -/
inductive ReadsFile (d : Str) (p : Settings K) : Str → Prop
  | train : (p.job = 0 ∨ p.job = 1 ∨ p.job = 4) → ReadsFile d p (d ++ p.trainSetFile)
  | reference : (p.job = 0 ∨ p.job = 1 ∨ p.job = 4) → p.refNetFile ≠ [] → ReadsFile d p (d ++ p.refNetFile)
  | test : (p.job = 2 ∨ p.job = 4) → ReadsFile d p (d ++ p.testSetFile)
  | distributions : p.job = 2 → p.ptFile ≠ [] → ReadsFile d p (d ++ p.ptFile)
  | network : (p.job = 2 ∨ p.job = 5) → ReadsFile d p (d ++ p.netFile)

/-- `b` stands at place `k` of `s`, and at no place before. -/
def FirstAt (s b : Str) (k : Nat) : Prop := (∃ r, s.drop k = b ++ r) ∧ ∀ j < k, ¬ ∃ r, s.drop j = b ++ r

/-- The result of a command that may not end. -/
def ended (r : Except Fault (Option α)) : Except Stop α :=
  match r with
  | .error f => .error (.fault f)
  | .ok none => .error .endless
  | .ok (some a) => .ok a

/-- The reference file, if its path is not empty. -/
def RefText (w : World) (ref : Str) (text : Option Str) : Prop := (ref = [] ∧ text = none) ∨ (ref ≠ [] ∧ text ≠ none ∧ w.files ref = text)

/-- The text of an optional file of the command line; an empty name means that no file is given. -/
def GivenText (w : World) (d name : Str) (text : Option Str) : Prop :=
  (name = [] ∧ text = none) ∨ (name ≠ [] ∧ text ≠ none ∧ w.files (d ++ name) = text)

/-- The files after learning. -/
def afterLearning (w : World) (train : Str) (out : LearnOutput) : World :=
  (w.putIf (train ++ lit "_struct") out.structFile).putIf (train ++ lit "_param") out.paramFile

/-- The result of a command that ends. -/
def outcome (r : Except Fault α) : Except Stop α :=
  match r with
  | .error f => .error (.fault f)
  | .ok a => .ok a

end Spec

end FastPGM
