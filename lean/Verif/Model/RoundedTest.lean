import Verif.Model.Skeleton

/-!
Model of src/fastpgm/structure_learning/IndependenceTest.cpp (metric "g square") for an arbitrary arithmetic: the statements of
`Verif.Model.IndependenceTest`, with every operation on `double`s replaced by an operation of the machine, in the order in which the code
computes.  The contingency tables are those of `Verif.Model.CellTable`; they hold integers.
-/

namespace FastPGM

variable {K : Type}

/-- The operations of a machine on `double`s that the independence tests use.  `ofCount` is the conversion from `long`; `zero`, `one` and `two`
are the constants 0.0, 1.0 and 2.0; `pchisq` is `stats::pchisq`, with `none` for NaN. -/
structure DoubleOps (K : Type) where
  zero : K
  one : K
  two : K
  ofCount : Nat → K
  add : K → K → K
  sub : K → K → K
  mul : K → K → K
  div : K → K → K
  log : K → K
  pchisq : K → Nat → Option K

variable (o : DoubleOps K)

/-- IndependenceTest.cpp 134-135, 252-253 and 344-345: what one cell adds to the statistic: `2.0 * observed * log(observed / expected)` with
`expected = (double)sum_col * (double)sum_row / (double) total`. -/
def DoubleOps.term (observed row col total : Nat) : K :=
  let expected := o.div (o.mul (o.ofCount col) (o.ofCount row)) (o.ofCount total)
  o.mul (o.mul o.two (o.ofCount observed)) (o.log (o.div (o.ofCount observed) expected))

/-- IndependenceTest.cpp 93-137 (`off = 0`) and 202-254 (`off = cum_dims[m]`). -/
def gSquareStratumR (t : Counts) (dimx dimy off : Nat) (st : K × Nat) (k : Nat) : Except Fault (K × Nat) := do
  let alx ← positives t.ni (k * dimx + off * dimx) dimx
  let aly ← positives t.nj (k * dimy + off * dimy) dimy
  let alx := if alx ≥ 1 then alx else 1
  let aly := if aly ≥ 1 then aly else 1
  let df := st.2 + (alx - 1) * (aly - 1)
  let total ← rd t.nk (k + off)
  if total = 0 then return (st.1, df)
  else do
    let g2 ← (List.range dimx).foldlM (fun g2 i => do
      let row ← rd t.ni (k * dimx + i + off * dimx)
      if row = 0 then return g2
      else
        (List.range dimy).foldlM (fun g2 j => do
          let col ← rd t.nj (k * dimy + j + off * dimy)
          let observed ← rd t.n (k * dimx * dimy + i * dimy + j + off * dimx * dimy)
          if col = 0 ∨ observed = 0 then return g2
          else return o.add g2 (o.term observed row col total)) g2) st.1
    return (g2, df)

/-- IndependenceTest.cpp 146: `1.0 - stats::pchisq(g2, df, false)`. -/
def pValueR (g2 : K) (df : Nat) : Option K := (o.pchisq g2 df).map (o.sub o.one)

/-- IndependenceTest.cpp 65-155 `ComputeGSquareXYZ`. -/
def gSquareXYZR [LinearOrder K] (alpha : K) (dims : List Nat) (cols : List (List Nat)) (m x y : Nat) (z : List Nat) :
    Except Fault (Bool × Option Nat) := do
  let dimx ← rd dims x
  let dimy ← rd dims y
  let condDims ← z.mapM (rd dims)
  let (t, dimz) ← counts3D cols m dimx dimy x y condDims z
  let (g2, df) ← (List.range dimz).foldlM (gSquareStratumR o t dimx dimy 0) (o.zero, 0)
  if df = 0 then return (true, some 0)
  else return (exceeds (pValueR o g2 df) alpha, some 0)

/-- IndependenceTest.cpp 163-287 `ComputeGSquareXYZGroup`. -/
def gSquareXYZGroupR [LinearOrder K] (alpha : K) (dims : List Nat) (cols : List (List Nat)) (m x y : Nat) (z : List Nat) (size : Nat) :
    Except Fault (Bool × Option Nat) := do
  let dimx ← rd dims x
  let dimy ← rd dims y
  let condDims ← z.mapM (rd dims)
  let (t, dimz, off) ← counts3DGroup cols m dimx dimy x y condDims z size
  let results ← (List.range size).foldlM (fun (results : List Bool) e => do
    let d ← rd dimz e
    let f ← rd off e
    let (g2, df) ← (List.range d).foldlM (gSquareStratumR o t dimx dimy f) (o.zero, 0)
    let results ← (if df = 0 then wr results e true else .ok results)
    wr results e (exceeds (pValueR o g2 df) alpha)) (List.replicate 8 false)
  match (List.range size).find? (fun e => results.getD e false) with
  | some e => return (true, some e)
  | none => return (false, none)

/-- IndependenceTest.cpp 295-364 `ComputeGSquareXY`. -/
def gSquareXYR [LinearOrder K] (alpha : K) (dims : List Nat) (cols : List (List Nat)) (m x y : Nat) : Except Fault (Bool × Option Nat) := do
  let dimx ← rd dims x
  let dimy ← rd dims y
  let t ← counts2D cols m dimx dimy x y
  let (g2, df) ← gSquareStratumR o { t with nk := [m] } dimx dimy 0 (o.zero, 0) 0
  if df = 0 then return (true, none)
  else return (exceeds (pValueR o g2 df) alpha, none)

/-- The test used by the learner (IndependenceTest.cpp 35-58 `IndependenceResult`): its verdict and the reported index. -/
def ciTestR [LinearOrder K] (alpha : K) (dims : List Nat) (cols : List (List Nat)) (m : Nat) : CITest := fun x y z size =>
  if z = [] then gSquareXYR o alpha dims cols m x y
  else if size > 1 then gSquareXYZGroupR o alpha dims cols m x y z size
  else gSquareXYZR o alpha dims cols m x y z

end FastPGM
