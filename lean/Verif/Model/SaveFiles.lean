import Verif.Model.Params
import Verif.Model.Parameter

/-!
Model of the files that learning writes: the structure (src/fastpgm/structure_learning/StructureLearning.cpp 238-293) and the parameters
(src/fastpgm/parameter_learning/ParameterLearning.cpp 111-154).  The result is the text of the file.
-/

namespace FastPGM

variable {K : Type}

/-- StructureLearning.cpp 262, 269-270, 281-290: name and index of a node.  `names` holds the member `node_name` of the nodes. -/
def nodeText (names : List Str) (i : Nat) : Except Fault Str := do return (← rd names i) ++ lit "/v" ++ intToStr i

/-- StructureLearning.cpp 266-273: the line of a child; `st` is the text so far and `edge_count`. -/
def saveChild (names : List Str) (x : Nat) (st : Str × Nat) (c : Nat) : Except Fault (Str × Nat) := do
  let line := intToStr st.2 ++ lit ": " ++ (← nodeText names x) ++ lit " -> " ++ (← nodeText names c)
  return (st.1 ++ line ++ [10], st.2 + 1)

/-- StructureLearning.cpp 278-291: the line of entry `i` of `vec_edges`. -/
def saveEdge (names : List Str) (edges : List Edge) (out : Str) (i : Nat) : Except Fault Str := do
  let e ← rdAt edges i
  let line ← (do
    if ¬ e.isDirected then return (← nodeText names e.node1) ++ lit " -- " ++ (← nodeText names e.node2)
    else if e.end1 = .tail then return (← nodeText names e.node1) ++ lit " -> " ++ (← nodeText names e.node2)
    else return (← nodeText names e.node2) ++ lit " -> " ++ (← nodeText names e.node1))
  return out ++ intToStr i ++ lit ": " ++ line ++ [10]

/-- StructureLearning.cpp 238-293 `SaveBNStructure` for a file that can be opened; `numEdges` is the member `num_edges`.  Reading
`vec_edges[0]` of an empty vector is undefined.  The topological order that is computed on the way is kept in the network; this is left
out. -/
def saveStructure (names : List Str) (numEdges : Nat) (N : Net) : Except Fault Str := do
  let head := lit "number of nodes = " ++ intToStr N.nodes.length ++ lit ", number of edges = " ++ intToStr numEdges ++ [10]
  let first ← rd N.edges 0
  if first.isDirected then do
    let (topo, _) ← N.getTopoOrd
    let (out, _) ← (List.range N.nodes.length).foldlM (fun st i => do
      let x ← rd topo i
      let s ← N.find x
      s.children.foldlM (saveChild names x) st) (head, 0)
    return out
  else (List.range numEdges).foldlM (saveEdge names N.edges) head

/-- DiscreteNode.cpp 54-60 `GetValueNameByIndex`; without a name for the value the function ends without `return`, which is undefined. -/
def valueName (ids : List (Str × Int)) (x : Nat) : Except Fault Str :=
  match ids.find? (fun p => p.2 = (x : Int)) with
  | some p => .ok p.1
  | none => .error .ub

/-- ParameterLearning.cpp 126-130 and 138-145: name of a variable and of its value. -/
def valueText (names : List Str) (valueIds : List (List (Str × Int))) (v x : Nat) : Except Fault Str := do
  return (← nodeText names v) ++ lit "=" ++ (← valueName (← rd valueIds v) x) ++ lit "/" ++ intToStr x

/-- ParameterLearning.cpp 133-150: the line of entry `j` of the table of node `i`.  `fmt` is `to_string` for `double`.  The first of the
variables of the table is taken to be the node itself. -/
def saveEntry (fmt : K → Str) (names : List Str) (valueIds : List (List (Str × Int))) (i : Nat) (T : Table K) (out : Str) (j : Nat) :
    Except Fault Str := do
  if T.vars.length = 1 then do
    let t ← valueText names valueIds i j
    return out ++ lit "P (" ++ t ++ lit ") = " ++ fmt (← rd T.pot j) ++ [10]
  else do
    let config ← getConfig T.cum j
    let t ← valueText names valueIds i (← rd config 0)
    let given ← ((List.range T.vars.length).drop 1).foldlM (fun s k => do
      return s ++ (← valueText names valueIds (← rd T.vars k) (← rd config k)) ++ lit ", ") ([] : Str)
    let prob ← popBack (← popBack (lit "P (" ++ t ++ lit " | " ++ given))
    return out ++ prob ++ lit ") = " ++ fmt (← rd T.pot j) ++ [10]

/-- ParameterLearning.cpp 111-154 `SaveBNParameter` for a file that can be opened; `valueIds` holds the member `possible_values_ids` of
the nodes. -/
def saveParameters (fmt : K → Str) (names : List Str) (valueIds : List (List (Str × Int))) (numNodes : Nat) (pts : List (Table K)) :
    Except Fault Str :=
  (List.range numNodes).foldlM (fun out i => do
    let T ← rd pts i
    (List.range T.size).foldlM (saveEntry fmt names valueIds i T) out) []

end FastPGM
