import Verif.Model.Table

/-!
Model of the parts of `PotentialTableBase` for importance sampling: the second vector of potentials `potentialsICPT` and the scores
(src/fastpgm/PotentialTableBase.cpp).
-/

namespace FastPGM

variable {K : Type}

/-- PotentialTableBase.h 24-37: a table with `potentialsICPT` and `pt_scores`. -/
structure STable (K : Type) where
  base : Table K
  /-- `potentialsICPT` -/
  icpt : List K
  /-- `pt_scores` -/
  scores : List K
  deriving DecidableEq, Repr

/-- The table with `potentialsICPT` in place of `potentials`. -/
def STable.icptTable (T : STable K) : Table K := { T.base with pot := T.icpt }

/-- The table with `pt_scores` in place of `potentials`. -/
def STable.scoreTable (T : STable K) : Table K := { T.base with pot := T.scores }

/-- PotentialTableBase.cpp 1077-1095 `NormalizeICPT`: the code of `NormalizeCPT` on `potentialsICPT`. -/
def STable.normalizeICPT [Div K] [Zero K] [Add K] [LT K] [DecidableLT K] (T : STable K) : Except Fault (STable K) := do
  let S ← FastPGM.normalizeCPT T.icptTable
  return { T with icpt := S.pot }

/-- PotentialTableBase.cpp 1097-1115 `NormalizePtScore`: the code of `NormalizeCPT` on `pt_scores`. -/
def STable.normalizePtScore [Div K] [Zero K] [Add K] [LT K] [DecidableLT K] (T : STable K) : Except Fault (STable K) := do
  let S ← FastPGM.normalizeCPT T.scoreTable
  return { T with scores := S.pot }

/-- PotentialTableBase.cpp 1123-1128 `UniformDistribution`; a first variable without values gives an infinite `value`. -/
def STable.uniformDistribution [DivisionRing K] (T : STable K) : Except Fault (STable K) := do
  let d ← rd T.base.dims 0
  if d = 0 then .error .nan
  else
    let icpt ← (List.range T.base.size).foldlM (fun p i => wr p i (1 / (d : K))) T.icpt
    return { T with icpt := icpt }

/-- PotentialTableBase.cpp 426-470 `GetReducedICPTPotentials`: the code of `GetReducedPotentials` on `potentialsICPT`. -/
def STable.getReducedICPTPotentials (T : STable K) (result : List K) (evidence : List Nat) : Except Fault (List K) :=
  FastPGM.getReducedPotentials T.icptTable result evidence

/-- PotentialTableBase.cpp 495-512 `GetReducedIndexAndPotential`: the index (an output argument) and the potential. -/
def getReducedIndexAndPotential (T : Table K) (evidence : List Nat) : Except Fault (Nat × K) :=
  if T.vars.length = 1 then do
    let v ← rd T.vars 0
    let x ← rd evidence v
    let q ← rd T.pot x
    return (x, q)
  else do
    let config ← T.vars.mapM (rd evidence)
    let index := getIndex config T.cum
    let q ← rd T.pot index
    return (index, q)

/-- PotentialTableBase.cpp 753-763 `GetMarginalizedProbabilities`: `result` is replaced for a node without parents and increased
otherwise. -/
def STable.getMarginalizedProbabilities [Add K] (T : STable K) (result : List K) : Except Fault (List K) :=
  if T.base.vars.length = 1 then .ok T.icpt
  else do
    (List.range T.base.size).foldlM (fun r i => do
      let c ← rd T.base.cum 0
      if c = 0 then .error .ub
      else
        let q ← rd T.icpt i
        let o ← rd r (i / c)
        wr r (i / c) (o + q)) result

end FastPGM
