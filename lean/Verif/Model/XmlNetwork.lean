import Verif.Model.Params
import Verif.Model.Dataset
import Verif.Model.Parameter

/-!
Model of the loader of XMLBIF network files (src/fastpgm/XMLBIFParser.cpp, src/fastpgm/CustomNetwork.cpp 15-43).

The XML text itself is read by tinyxml2, which is not modelled: the input is the document it delivers, reduced to the elements the loader
asks for.  The text of an element is `none` if the element is missing or empty; the code then uses a null pointer.
-/

namespace FastPGM

variable {K : Type}

/-- A `VARIABLE` element. -/
structure XmlVar where
  name : Option Str
  type : Option Str
  values : List (Option Str)
  deriving DecidableEq, Repr

/-- A `PROBABILITY` element. -/
structure XmlProb where
  node : Option Str
  givens : List (Option Str)
  table : Option Str
  deriving DecidableEq, Repr

/-- The children of `NETWORK`. -/
structure XmlDoc where
  name : Option Str
  vars : List XmlVar
  probs : List XmlProb
  deriving DecidableEq, Repr

/-- A network together with the members of the nodes that come from a file. -/
structure NetFile where
  net : Net
  /-- `node_name` -/
  names : List Str := []
  /-- `possible_values_ids` -/
  valueIds : List ValueMap := []
  /-- the statistics of the nodes -/
  stats : List NodeStats := []
  /-- `num_edges` -/
  numEdges : Nat := 0
  netName : Str := []

/-- `GetText()` used as a string. -/
def xmlText : Option Str → Except Fault Str
  | some s => .ok s
  | none => .error .ub

/-- `map::operator[]` followed by an assignment. -/
def ValueMap.assign (m : ValueMap) (key : Str) (i : Int) : ValueMap :=
  if m.any (fun x => x.1 = key) then m.map (fun x => if x.1 = key then (key, i) else x) else m ++ [(key, i)]

/-- XMLBIFParser.cpp 51-58: the values of one variable, numbered in file order. -/
def xmlValues (values : List (Option Str)) : Except Fault (ValueMap × Int) :=
  values.foldlM (fun st v => do
    let s ← xmlText v
    return (st.1.assign s st.2, st.2 + 1)) ([], 0)

/-- XMLBIFParser.cpp 44-61: one variable; those that are not discrete are skipped. -/
def xmlVariable (F : NetFile) (v : XmlVar) : Except Fault NetFile := do
  let type ← xmlText v.type
  if type = lit "discrete" then do
    let name ← xmlText v.name
    let (m, _) ← xmlValues v.values
    return { F with
      net := { F.net with nodes := F.net.nodes ++ [{ dim := m.length }] }
      names := F.names ++ [name]
      valueIds := F.valueIds ++ [m]
      stats := F.stats ++ [NodeStats.new] }
  else return F

/-- XMLBIFParser.cpp 33-71 `GetUnconnectedNodes`. -/
def unconnectedNodes (doc : XmlDoc) : Except Fault NetFile :=
  if doc.vars = [] then .error .exit else doc.vars.foldlM xmlVariable { net := { nodes := [] } }

/-- XMLBIFParser.cpp 81-91, 102-113: the first node with that name. -/
def nodeByName (names : List Str) (s : Str) : Except Fault Nat :=
  match names.findIdx? (fun n => n = s) with
  | some i => .ok i
  | none => .error .exit

/-- XMLBIFParser.cpp 78-176: one `PROBABILITY`.  `stod` parses a number, `toCount` is the conversion `int(entry * 10000)`. -/
def xmlProbability (stod : Str → Except Fault K) (toCount : K → Int) (F : NetFile) (p : XmlProb) : Except Fault NetFile := do
  let node ← nodeByName F.names (← xmlText p.node)
  let given ← p.givens.mapM (fun g => do nodeByName F.names (← xmlText g))
  let net ← given.foldlM (fun N g => N.setParentChild g node) F.net
  let tokens ← split (trim (← xmlText p.table)) [32]
  let entries ← tokens.mapM stod
  let t ← assignTable net toCount node given entries (← rd F.stats node)
  return { F with net := net, stats := F.stats.set node t }

/-- CustomNetwork.cpp 34-42: an edge from every node to each of its children. -/
def childEdges (N : Net) : List Edge :=
  N.nodes.zipIdx.flatMap (fun x => x.1.children.map (fun c => mkDirected x.2 c))

/-- XMLBIFParser.cpp 3-23 and 183-187, CustomNetwork.cpp 15-43 `LoadXMLBIFFile`, on a new network.  The argument `alpha` of the
C++ function is not used by it. -/
def loadXMLBIF (stod : Str → Except Fault K) (toCount : K → Int) (doc : XmlDoc) : Except Fault NetFile := do
  if doc.vars.length ≠ doc.probs.length then .error .exit
  else do
    let F ← unconnectedNodes doc
    let F ← doc.probs.foldlM (xmlProbability stod toCount) F
    let name ← xmlText doc.name
    let edges := childEdges F.net
    return { F with net := { F.net with edges := edges }, numEdges := edges.length, netName := name }

/-- DiscreteNode.h 50 and DiscreteNode.cpp 101-106: `GetProbability` of a loaded node; the smoothing constant is the default 1. -/
def NetFile.prob [Field K] [DecidableEq K] (F : NetFile) (i x : Nat) (u : Config) : Except Fault K := do
  let s ← F.net.find i
  let t ← rd F.stats i
  t.getProbability s 1 x u

end FastPGM
