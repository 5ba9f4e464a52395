import Verif.Model.Evaluation
import Verif.Spec.Posterior

/-!
Specification side of the evaluation: the packed list of distributions, the files of reference distributions, and the error measures.
-/

namespace FastPGM.Spec

open FastPGM

variable {K : Type}

/-- The distributions of the nodes `0, …, n-1` one after the other; an observed node takes one place, with the number -1. -/
def packed [Neg K] [One K] (n : Nat) (card : Nat → Nat) (obs : List Nat) (f : Nat → Nat → K) : List K :=
  (List.range n).flatMap (fun i => if i ∈ obs then [-1] else (List.range (card i)).map (f i))

/-- The line for a node: blank for an observed node, otherwise the numbers with single blanks between them; white space may follow. -/
def TruthLine (stod : Str → Except Fault K) (observed : Bool) (numbers : List K) (line : Str) : Prop :=
  10 ∉ line ∧
  if observed then ∀ c ∈ line, c < 33
  else ∃ (tokens : List Str) (post : Str), line = List.intercalate [32] tokens ++ post ∧ (∀ c ∈ post, c < 33) ∧ tokens ≠ [] ∧
    (∀ t ∈ tokens, t ≠ [] ∧ ∀ c ∈ t, 33 ≤ c) ∧ List.Forall₂ (fun t e => stod t = .ok e) tokens numbers

/-- The lines for one instance. -/
def TruthLines (stod : Str → Except Fault K) (n : Nat) (card : Nat → Nat) (obs : List Nat) (f : Nat → Nat → K) (lines : List Str) : Prop :=
  List.Forall₂ (fun i line => TruthLine stod (decide (i ∈ obs)) ((List.range (card i)).map (f i)) line) (List.range n) lines

/-- The root of the mean of the squares. -/
def rms [Field K] (sqrt : K → K) (l : List K) : K := sqrt ((l.map (fun d => d * d)).sum / (l.length : K))

/-- The pairs of an approximate and an exact probability that count: those of the nodes that are not observed with exact probability
greater than 0. -/
def counted [Zero K] [LT K] [DecidableLT K] (n : Nat) (card : Nat → Nat) (obs : List Nat) (approx exact : Nat → Nat → K) : List (K × K) :=
  ((List.range n).flatMap (fun i => if i ∈ obs then [] else (List.range (card i)).map (fun x => (approx i x, exact i x)))).filter (fun p => 0 < p.2)

/-- The conversion to an integer cuts off: for numbers that are not negative, it is the greatest integer below. -/
def CutsOff [Field K] [LinearOrder K] (trunc : K → Int) : Prop :=
  ∀ x, 0 ≤ x → 0 ≤ trunc x ∧ (trunc x : K) ≤ x ∧ x < (trunc x : K) + 1

/-- A square root. -/
def IsSqrt [Field K] [LinearOrder K] (sqrt : K → K) : Prop := ∀ x, 0 ≤ x → 0 ≤ sqrt x ∧ sqrt x * sqrt x = x

end FastPGM.Spec
