import Verif.Model.CellTable

/-!
Model of src/fastpgm/structure_learning/IndependenceTest.cpp (metric "g square").

`log` is the natural logarithm and `pchisq` the distribution function of the chi-square distribution (`stats::pchisq`); both are
arbitrary functions here, the second with `none` for NaN.  `double` is a field.
-/

namespace FastPGM

variable {K : Type}

/-- IndependenceTest.h: `Result`.  `p` is `none` for NaN; `first` is `first` (-1: `none`). -/
structure CIResult (K : Type) where
  p : Option K
  indep : Bool
  first : Option Nat
  deriving DecidableEq, Repr

/-- IndependenceTest.cpp 97-102 and 206-211: how many of the `dim` entries from `start` on are positive. -/
def positives (l : List Nat) (start dim : Nat) : Except Fault Nat :=
  (List.range dim).foldlM (fun c i => do
    let v ← rd l (start + i)
    return c + if v > 0 then 1 else 0) 0

/-- IndependenceTest.cpp 93-137 (`off = 0`) and 202-254 (`off = cum_dims[m]`): one configuration `k` of the conditioning variables
is added to the statistic and the degrees of freedom. -/
def gSquareStratum [Field K] (log : K → K) (t : Counts) (dimx dimy off : Nat) (st : K × Nat) (k : Nat) : Except Fault (K × Nat) := do
  let alx ← positives t.ni (k * dimx + off * dimx) dimx
  let aly ← positives t.nj (k * dimy + off * dimy) dimy
  let alx := if alx ≥ 1 then alx else 1
  let aly := if aly ≥ 1 then aly else 1
  let df := st.2 + (alx - 1) * (aly - 1)
  let total ← rd t.nk (k + off)
  if total = 0 then return (st.1, df)
  else do
    let g2 ← (List.range dimx).foldlM (fun g2 i => do
      let row ← rd t.ni (k * dimx + i + off * dimx)
      if row = 0 then return g2
      else
        (List.range dimy).foldlM (fun g2 j => do
          let col ← rd t.nj (k * dimy + j + off * dimy)
          let observed ← rd t.n (k * dimx * dimy + i * dimy + j + off * dimx * dimy)
          if col = 0 ∨ observed = 0 then return g2
          else do
            let expected : K := (col : K) * (row : K) / (total : K)
            return g2 + 2 * (observed : K) * log ((observed : K) / expected)) g2) st.1
    return (g2, df)

/-- IndependenceTest.cpp 146-154: the p-value, and whether it exceeds `alpha` (comparison with NaN is false). -/
def pValue [Field K] (pchisq : K → Nat → Option K) (g2 : K) (df : Nat) : Option K :=
  (pchisq g2 df).map (fun q => 1 - q)

/-- `p_value > alpha` -/
def exceeds [LinearOrder K] (p : Option K) (alpha : K) : Bool :=
  match p with
  | some q => decide (alpha < q)
  | none => false

/-- IndependenceTest.cpp 65-155 `ComputeGSquareXYZ`.  `dims` is `num_of_possible_values_of_disc_vars`. -/
def gSquareXYZ [Field K] [LinearOrder K] (log : K → K) (pchisq : K → Nat → Option K) (alpha : K) (dims : List Nat) (cols : List (List Nat))
    (m x y : Nat) (z : List Nat) : Except Fault (CIResult K) := do
  let dimx ← rd dims x
  let dimy ← rd dims y
  let condDims ← z.mapM (rd dims)
  let (t, dimz) ← counts3D cols m dimx dimy x y condDims z
  let (g2, df) ← (List.range dimz).foldlM (gSquareStratum log t dimx dimy 0) ((0 : K), 0)
  if df = 0 then return ⟨some 1, true, some 0⟩
  else do
    let p := pValue pchisq g2 df
    return ⟨p, exceeds p alpha, some 0⟩

/-- IndependenceTest.cpp 163-287 `ComputeGSquareXYZGroup`.  `results` has 8 entries.  For `df == 0` the entry is set to `true` and then
overwritten by the comparison. -/
def gSquareXYZGroup [Field K] [LinearOrder K] (log : K → K) (pchisq : K → Nat → Option K) (alpha : K) (dims : List Nat)
    (cols : List (List Nat)) (m x y : Nat) (z : List Nat) (size : Nat) : Except Fault (CIResult K) := do
  let dimx ← rd dims x
  let dimy ← rd dims y
  let condDims ← z.mapM (rd dims)
  let (t, dimz, off) ← counts3DGroup cols m dimx dimy x y condDims z size
  let results ← (List.range size).foldlM (fun (results : List Bool) e => do
    let d ← rd dimz e
    let o ← rd off e
    let (g2, df) ← (List.range d).foldlM (gSquareStratum log t dimx dimy o) ((0 : K), 0)
    let results ← (if df = 0 then wr results e true else .ok results)
    wr results e (exceeds (pValue pchisq g2 df) alpha)) (List.replicate 8 false)
  match (List.range size).find? (fun e => results.getD e false) with
  | some e => return ⟨some (-1), true, some e⟩
  | none => return ⟨some 0, false, none⟩

/-- IndependenceTest.cpp 295-364 `ComputeGSquareXY`; `num_instance` is the total. -/
def gSquareXY [Field K] [LinearOrder K] (log : K → K) (pchisq : K → Nat → Option K) (alpha : K) (dims : List Nat) (cols : List (List Nat))
    (m x y : Nat) : Except Fault (CIResult K) := do
  let dimx ← rd dims x
  let dimy ← rd dims y
  let t ← counts2D cols m dimx dimy x y
  let (g2, df) ← gSquareStratum log { t with nk := [m] } dimx dimy 0 ((0 : K), 0) 0
  if df = 0 then return ⟨some 1, true, none⟩
  else do
    let p := pValue pchisq g2 df
    return ⟨p, exceeds p alpha, none⟩

/-- IndependenceTest.cpp 35-58 `IndependenceResult` for the metric "g square" (with any other metric the function returns without a
value, which is undefined). -/
def independenceResult [Field K] [LinearOrder K] (log : K → K) (pchisq : K → Nat → Option K) (alpha : K) (dims : List Nat)
    (cols : List (List Nat)) (m x y : Nat) (z : List Nat) (size : Nat) : Except Fault (CIResult K) :=
  if z = [] then gSquareXY log pchisq alpha dims cols m x y
  else if size > 1 then gSquareXYZGroup log pchisq alpha dims cols m x y z size
  else gSquareXYZ log pchisq alpha dims cols m x y z

end FastPGM
