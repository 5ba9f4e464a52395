import Verif.Model.Params
import Verif.Model.Int32

/-!
Parameter learning with its `int` arithmetic carried out in 32 bits; see `Model/Params.lean` for the same functions with unbounded numbers.
-/

namespace FastPGM

variable {K : Type}

/-- `a * b` for `int`s of any sign -/
def mulInt32 (a b : Int) : Except Fault Int := if -2147483648 ≤ a * b ∧ a * b ≤ 2147483647 then .ok (a * b) else .error .ub

/-- PotentialTableBase.cpp 102-130 `ConstructPotentialTableWithEmptyPotentials`. -/
def emptyTable32 [Zero K] (N : Net) (i : Nat) : Except Fault (Table K) := do
  let s ← N.find i
  if s.parents = [] then return ⟨[i], [s.dim], [1], s.dim, List.replicate s.dim 0⟩
  else do
    let vs := i :: s.parents
    let dims ← vs.mapM (fun v => do return (← N.find v).dim)
    let cum ← constructCumLevels32 dims
    let size ← firstProduct32 cum dims
    return ⟨vs, dims, cum, size, List.replicate size 0⟩

/-- `v[i]++` -/
def incr32 (l : List Nat) (i : Nat) : Except Fault (List Nat) := do
  let x ← rd l i
  let y ← add32 x 1
  wr l i y

/-- ParameterLearning.cpp 51-54 and 65-68: one counted instance with the given configuration. -/
def countConfig32 (T : Table K) (st : List Nat × List Nat) (config : List Nat) : Except Fault (List Nat × List Nat) := do
  let idx ← getIndex32 config T.cum
  let c0 ← rd T.cum 0
  if c0 = 0 then .error .ub
  else do
    let a ← incr32 st.1 idx
    let b ← incr32 st.2 (idx % c0)
    return (a, b)

/-- ParameterLearning.cpp 35-70: the counts `N(AB)` and `N(B)`. -/
def countNode32 (T : Table K) (cols : List (List Nat)) (m : Nat) (root : Option Nat) (rnd : Nat → Nat) :
    Except Fault (List Nat × List Nat) := do
  let v0 ← rd T.vars 0
  let c0 ← rd T.cum 0
  let zero := (List.replicate T.size 0, List.replicate c0 0)
  if T.vars.length = 1 then
    (List.range m).foldlM (fun st j => do
      let col ← rd cols v0
      let value ← rd col j
      let a ← incr32 st.1 value
      let b ← incr32 st.2 0
      return (a, b)) zero
  else if T.vars[1]? = root then
    (List.range m).foldlM (fun st j => do
      let col ← rd cols v0
      let value ← rd col j
      countConfig32 T st [value, rnd j]) zero
  else
    (List.range m).foldlM (fun st j => do
      let config ← T.vars.mapM (fun v => do rd (← rd cols v) j)
      countConfig32 T st config) zero

/-- ParameterLearning.cpp 80 and 97-98: `alpha * var_dims[0]` is a product of `int`s; the rest is computed in `double`. -/
def smoothed32 [Zero K] [Add K] [Div K] [NatCast K] [IntCast K] [DecidableEq K] (alpha : Int) (n1 n2 d0 : Nat) : Except Fault K := do
  let p ← mulInt32 alpha d0
  let den : K := (n2 : K) + (p : K)
  if den = 0 then .error .nan else .ok (((n1 : K) + (alpha : K)) / den)

/-- ParameterLearning.cpp 25-83: the table learned for variable `i`. -/
def learnNode32 [Zero K] [Add K] [Div K] [NatCast K] [IntCast K] [DecidableEq K] (N : Net) (cols : List (List Nat)) (m : Nat) (alpha : Int)
    (root : Option Nat) (rnd : Nat → Nat) (i : Nat) : Except Fault (Table K) := do
  let T ← emptyTable32 (K := K) N i
  let (stats, totals) ← countNode32 T cols m root rnd
  let c0 ← rd T.cum 0
  let d0 ← rd T.dims 0
  let pot ← (List.range T.size).mapM (fun j => do
    let n1 ← rd stats j
    let n2 ← (if T.vars.length = 1 then rd totals 0 else if c0 = 0 then .error .ub else rd totals (j % c0))
    smoothed32 alpha n1 n2 d0)
  return { T with pot := pot }

/-- ParameterLearning.cpp 86-101: the table of the virtual `ROOT`.  `0.5 * num_instance` is a `double`. -/
def learnRoot32 [Zero K] [Add K] [Div K] [NatCast K] [IntCast K] [DecidableEq K] (N : Net) (m : Nat) (alpha : Int) (root : Nat) :
    Except Fault (Table K) := do
  let T ← emptyTable32 (K := K) N root
  let d0 ← rd T.dims 0
  let p ← smoothed32 alpha (m / 2) m d0
  let pot ← wr T.pot 0 p
  let pot ← wr pot 1 p
  return { T with pot := pot }

/-- ParameterLearning.cpp 10-109 `LearnParamsKnowStructCompData`. -/
def learnParams32 [Zero K] [Add K] [Div K] [NatCast K] [IntCast K] [DecidableEq K] (N : Net) (cols : List (List Nat)) (numVars m : Nat) (alpha : Int)
    (rnd : Nat → Nat → Nat) (pts : List (Table K)) : Except Fault (List (Table K)) := do
  let root := if N.nodes.length = numVars then none else some numVars
  let new ← (List.range numVars).mapM (fun i => learnNode32 N cols m alpha root (rnd i) i)
  match root with
  | none => return pts ++ new
  | some r => do
    let T ← learnRoot32 N m alpha r
    return pts ++ new ++ [T]

end FastPGM
