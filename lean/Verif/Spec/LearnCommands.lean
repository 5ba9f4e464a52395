import Verif.Spec.Compelled
import Verif.Spec.Pipeline
import Verif.Spec.SaveFiles
import Verif.Spec.BifFile
import Verif.Spec.Params

/-!
Specification of the commands that learn a network.
-/

namespace FastPGM.Spec

open FastPGM

/-- The hypotheses on the training file: distinct column names, `n` clean cells in every row, at least one row. -/
structure TrainFile (n : Nat) (names : List Str) (train : List (List Str)) (file : Str) : Prop where
  pos : 0 < n
  csv : CsvFile names train file
  cleanNames : CleanRow n names
  rows : ∀ r ∈ train, CleanRow n r
  nonempty : train ≠ []
  distinct : ((List.range n).map (cellText names)).Nodup

/-- The texts of the header. -/
def columnNames (names : List Str) (n : Nat) : List Str := (List.range n).map (cellText names)

/-- The numbers of different texts in the columns of the table. -/
def trainDims (train : List (List Str)) (n : Nat) : List Nat := (List.range n).map (fun j => (firstSeen (column train j)).length)

/-- The columns of the table, each text replaced by the position of its first occurrence among the different texts. -/
def trainColumns (train : List (List Str)) (n : Nat) : List (List Nat) := (List.range n).map (fun j => (column train j).map (codeIn train j))

open Classical in
/-- The status of a pair in a partially directed graph: `P` are the arrows, `G` the pairs that are adjacent. -/
noncomputable def graphStatus (G P : Nat → Nat → Prop) (i j : Nat) : PairStatus :=
  if P i j then .forward else if P j i then .backward else if G i j then .undirected else .absent

/-- What learning may say about directions, for a skeleton and separating sets that do not contradict each other: the arrows form no cycle,
they lie on the skeleton, the v-structures demanded by the separating sets are among them, every arrow is an arrow of each acyclic graph with
this skeleton and these v-structures, and no undirected edge is left to which a rule of Meek applies. -/
structure LearnedGraph (G : Nat → Nat → Prop) (sep : Sepset) (P : Nat → Nat → Prop) : Prop where
  acyclic : ¬ Cyclic P
  within : ∀ x y, P x y → G x y
  demanded : ∀ x y, VArrow G sep x y → P x y
  entailed : ∀ D, Explains G sep D → ∀ x y, P x y → D x y
  closed : (∃ D, Explains G sep D) → ∀ x y, Undirected G P x y → ¬ MeekApplies G P x y
  nothing : (∀ x y, ¬ VArrow G sep x y) → ∀ x y, ¬ P x y

/-- No node of the graph has two "outsiders" (`AtMostOneOutsider`), whatever the topological order. -/
def NoTwoOutsiders (n : Nat) (D : Nat → Nat → Prop) : Prop := ∀ T, IsTopologicalOrder n D T → AtMostOneOutsider T D

open Classical in
/-- What the learned graph is compared with: if it has an undirected edge, the graph of the equivalence class of the reference, otherwise the
reference itself. -/
noncomputable def referenceStatus (G P D : Nat → Nat → Prop) : Nat → Nat → PairStatus :=
  if ∃ x y, Undirected G P x y then classStatus D else graphStatus (Joined D) D

variable {K : Type}

/-- The reference network of a command, if there is one, and the distance from the learned graph: the file says (C65) what the description
says, which has the `n` variables of the training file and, if the learned graph has an undirected edge, no two outsiders. -/
inductive Reference (stod : Str → Except Fault K) (rounds n : Nat) (G P : Nat → Nat → Prop) : Option Str → Option Nat → Prop
  | no : Reference stod rounds n G P none none
  | yes {vs : List VarDecl} {ts : List (TableDecl K)} {file last : Str} (good : GoodDescription vs ts) (describes : BifDescribes stod file vs ts)
      (bound : 3 * vs.length < rounds) (tail : 10 ∉ last) (size : vs.length = n)
      (outsiders : (∃ x y, Undirected G P x y) → NoTwoOutsiders n (DeclEdge ts)) :
      Reference stod rounds n G P (some (file ++ last)) (some (hamming n (referenceStatus G P (DeclEdge ts)) (graphStatus G P)))

/-- The smoothed relative frequency of the value of variable `i` in a configuration of `i` and its parents. -/
def smoothedFrequency [Field K] (rows : List Assignment) (card : Nat → Nat) (i : Nat) (parents config : List Nat) : K :=
  ((countSame rows (i :: parents) (ofConfig (i :: parents) config) : K) + 1) /
    ((countSame rows parents (ofConfig (i :: parents) config) : K) + (card i : K))

/-- The parameter file with the smoothed relative frequencies of the table. -/
def frequencyText [Field K] (fmt : K → Str) (names : List Str) (train : List (List Str)) (n : Nat) (parents : Nat → List Nat) : Str :=
  textOf ((List.range n).flatMap (fun i => (configsOf ((i :: parents i).map (fun v => (firstSeen (column train v)).length))).map (fun c =>
    parameterLine (columnNames names n) (fun v => firstSeen (column train v)) i (parents i) c
      (fmt (smoothedFrequency (train.map (rowAssignment train)) (fun v => (firstSeen (column train v)).length) i (parents i) c)))))

end FastPGM.Spec
