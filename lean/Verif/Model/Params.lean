import Verif.Model.Table
import Verif.Model.Network
import Verif.Model.NaryCount

/-!
Model of the conditional probability tables: node statistics (src/fastpgm/DiscreteNode.cpp), the table built from a node
(src/fastpgm/PotentialTableBase.cpp 16-130), parameter learning (src/fastpgm/parameter_learning/ParameterLearning.cpp) and the
assignment of the numbers of an XML file to the nodes (src/fastpgm/XMLBIFParser.cpp).
-/

namespace FastPGM

variable {K : Type}

/-- DiscreteNode.h: the two maps of statistics and `cpt_initialized`.  A `map` read through `operator[]` is a total function with
default 0. -/
structure NodeStats where
  /-- `map_cond_prob_table_statistics[query][parent_config]` -/
  stat : Nat → Config → Int
  /-- `map_total_count_under_parents_config[parent_config]` -/
  total : Config → Int
  /-- `cpt_initialized` -/
  init : Bool

/-- A new node: both maps empty. -/
def NodeStats.new : NodeStats := ⟨fun _ _ => 0, fun _ => 0, false⟩

/-- DiscreteNode.cpp 65-81 `InitializeCPT`. -/
def NodeStats.initialize (s : NodeS) (t : NodeStats) : NodeStats :=
  let us : List Config := if s.parents = [] then [[]] else s.combs
  { stat := fun x u => if u ∈ us ∧ x < s.dim then 0 else t.stat x u
    total := fun u => if u ∈ us then 0 else t.total u
    init := true }

/-- DiscreteNode.cpp 88-94 `AddCount`. -/
def NodeStats.addCount (s : NodeS) (t : NodeStats) (query : Nat) (u : Config) (count : Int) : NodeStats :=
  let t := if t.init then t else t.initialize s
  { t with
    total := fun w => if w = u then t.total w + count else t.total w
    stat := fun x w => if x = query ∧ w = u then t.stat x w + count else t.stat x w }

/-- DiscreteNode.cpp 101-106 `GetProbability`; `alpha` is `laplace_smooth`. -/
def NodeStats.getProbability [Field K] [DecidableEq K] (s : NodeS) (t : NodeStats) (alpha : K) (query : Nat) (u : Config) :
    Except Fault K :=
  let den := (t.total u : K) + alpha * (s.dim : K)
  if den = 0 then .error .nan else .ok (((t.stat query u : K) + alpha) / den)

/-- A sequence of `AddCount` calls `(query, parents_config, count)`. -/
def NodeStats.run (s : NodeS) (t : NodeStats) (calls : List (Nat × Config × Int)) : NodeStats :=
  calls.foldl (fun t c => t.addCount s c.1 c.2.1 c.2.2) t

/-- PotentialTableBase.cpp 52-58: `parent_config.insert(...)` for each position after the first. -/
def parentConfigOf (parents : List Nat) (config : List Nat) : Config :=
  (List.zip parents config).foldl (fun c x => configInsert x c) []

/-- PotentialTableBase.cpp 102-130 `ConstructPotentialTableWithEmptyPotentials`; also the part of 16-50 that fixes the shape.
New potentials are 0. -/
def emptyTable [Zero K] (N : Net) (i : Nat) : Except Fault (Table K) := do
  let s ← N.find i
  if s.parents = [] then return ⟨[i], [s.dim], [1], s.dim, List.replicate s.dim 0⟩
  else do
    let vs := i :: s.parents
    let dims ← vs.mapM (fun v => do return (← N.find v).dim)
    let cum ← constructCumLevels dims
    let size ← firstProduct cum dims
    return ⟨vs, dims, cum, size, List.replicate size 0⟩

/-- PotentialTableBase.cpp 16-69 `PotentialTableBase(DiscreteNode*, Network*)`; `prob` is the node's `GetProbability`. -/
def nodeTable [Zero K] (N : Net) (i : Nat) (prob : Nat → Config → Except Fault K) : Except Fault (Table K) := do
  let s ← N.find i
  let T ← emptyTable (K := K) N i
  if s.parents = [] then do
    let pot ← (List.range T.size).mapM (fun k => prob k [])
    return { T with pot := pot }
  else do
    let pot ← (List.range T.size).mapM (fun k => do
      let config ← getConfig T.cum k
      let x ← rd config 0
      prob x (parentConfigOf s.parents config.tail))
    return { T with pot := pot }

/-- `v[i]++` -/
def incr (l : List Nat) (i : Nat) : Except Fault (List Nat) := do
  let x ← rd l i
  wr l i (x + 1)

/-- ParameterLearning.cpp 51-54 and 65-68: one counted instance with the given configuration. -/
def countConfig (T : Table K) (st : List Nat × List Nat) (config : List Nat) : Except Fault (List Nat × List Nat) := do
  let idx := getIndex config T.cum
  let c0 ← rd T.cum 0
  if c0 = 0 then .error .ub
  else do
    let a ← incr st.1 idx
    let b ← incr st.2 (idx % c0)
    return (a, b)

/-- ParameterLearning.cpp 35-70: the counts `N(AB)` and `N(B)`.  `cols` is `dataset_columns`, `m` is `num_instance`, `root` is
`root_idx` (`none` for -1) and `rnd j` the value of `Random01()` drawn for instance `j`. -/
def countNode (T : Table K) (cols : List (List Nat)) (m : Nat) (root : Option Nat) (rnd : Nat → Nat) :
    Except Fault (List Nat × List Nat) := do
  let v0 ← rd T.vars 0
  let c0 ← rd T.cum 0
  let zero := (List.replicate T.size 0, List.replicate c0 0)
  if T.vars.length = 1 then
    (List.range m).foldlM (fun st j => do
      let col ← rd cols v0
      let value ← rd col j
      let a ← incr st.1 value
      let b ← incr st.2 0
      return (a, b)) zero
  else if T.vars[1]? = root then
    (List.range m).foldlM (fun st j => do
      let col ← rd cols v0
      let value ← rd col j
      countConfig T st [value, rnd j]) zero
  else
    (List.range m).foldlM (fun st j => do
      let config ← T.vars.mapM (fun v => do rd (← rd cols v) j)
      countConfig T st config) zero

/-- ParameterLearning.cpp 80 and 97-98: `((double)num1 + alpha) / ((double)num2 + alpha * var_dims[0])`.  `alpha` is an `int`, so the product
is a product of `int`s. -/
def smoothed [Zero K] [Add K] [Div K] [NatCast K] [IntCast K] [DecidableEq K] (alpha : Int) (n1 n2 d0 : Nat) : Except Fault K :=
  let den : K := (n2 : K) + ((alpha * (d0 : Int) : Int) : K)
  if den = 0 then .error .nan else .ok (((n1 : K) + (alpha : K)) / den)

/-- ParameterLearning.cpp 25-83: the table learned for variable `i`. -/
def learnNode [Zero K] [Add K] [Div K] [NatCast K] [IntCast K] [DecidableEq K] (N : Net) (cols : List (List Nat)) (m : Nat) (alpha : Int) (root : Option Nat)
    (rnd : Nat → Nat) (i : Nat) : Except Fault (Table K) := do
  let T ← emptyTable (K := K) N i
  let (stats, totals) ← countNode T cols m root rnd
  let c0 ← rd T.cum 0
  let d0 ← rd T.dims 0
  let pot ← (List.range T.size).mapM (fun j => do
    let n1 ← rd stats j
    let n2 ← (if T.vars.length = 1 then rd totals 0 else if c0 = 0 then .error .ub else rd totals (j % c0))
    smoothed alpha n1 n2 d0)
  return { T with pot := pot }

/-- ParameterLearning.cpp 86-101: the table of the virtual `ROOT`. -/
def learnRoot [Zero K] [Add K] [Div K] [NatCast K] [IntCast K] [DecidableEq K] (N : Net) (m : Nat) (alpha : Int) (root : Nat) : Except Fault (Table K) := do
  let T ← emptyTable (K := K) N root
  let d0 ← rd T.dims 0
  let p ← smoothed alpha (m / 2) m d0
  let pot ← wr T.pot 0 p
  let pot ← wr pot 1 p
  return { T with pot := pot }

/-- ParameterLearning.cpp 10-109 `LearnParamsKnowStructCompData`: the tables appended to `network->pts` (which is not cleared first).
`numVars` is `dts->num_vars`; `rnd i j` is the draw made for instance `j` of variable `i`. -/
def learnParams [Zero K] [Add K] [Div K] [NatCast K] [IntCast K] [DecidableEq K] (N : Net) (cols : List (List Nat)) (numVars m : Nat) (alpha : Int)
    (rnd : Nat → Nat → Nat) (pts : List (Table K)) : Except Fault (List (Table K)) := do
  let root := if N.nodes.length = numVars then none else some numVars
  let new ← (List.range numVars).mapM (fun i => learnNode N cols m alpha root (rnd i) i)
  match root with
  | none => return pts ++ new
  | some r => do
    let T ← learnRoot N m alpha r
    return pts ++ new ++ [T]

/-- XMLBIFParser.cpp 133-176 (the numbers of one TABLE): `node` is the FOR variable, `given` the indices of the GIVEN variables in
file order, `entries` the parsed numbers; `toCount` is the conversion `int(entry * 10000)`.  Parents have been added before. -/
def assignTable (N : Net) (toCount : K → Int) (node : Nat) (given : List Nat) (entries : List K) (t : NodeStats) :
    Except Fault NodeStats := do
  let s ← N.find node
  let gdims ← given.mapM (fun v => do return (← N.find v).dim)
  let counts ← naryCount (s.dim :: gdims)
  if counts.length ≠ entries.length then .error .exit
  else
    (List.zip counts entries).foldlM (fun t ce => do
      let query ← rd ce.1 0
      return t.addCount s query (parentConfigOf given ce.1.tail) (toCount ce.2)) t

end FastPGM
