import Verif.Model.XmlNetwork

/-!
Model of the loader of BIF network files (src/fastpgm/CustomNetwork.cpp 46-201 `LoadBIFFile`), on the characters of the file.

The members of the nodes that come from the file are those of `NetFile`.  A domain size in the file that is negative is kept as 0, a node
whose domain size is not given has 0 instead of the -1 of the constructor.
-/

namespace FastPGM

variable {K : Type}

/-- CustomNetwork.cpp 86-87, 110-111, 133-134: `TrimLeft`, then `Split` at blanks. -/
def bifTokens (line : Str) : Except Fault (List Str) := split (trimLeft line) [32]

/-- Use of a node pointer. -/
def deref : Option Nat → Except Fault Nat
  | some i => .ok i
  | none => .error .ub

/-- Network.cpp 78-88 `FindNodePtrByName`: the first node with that name, or a null pointer. -/
def findByName (names : List Str) (s : Str) : Option Nat := names.findIdx? (fun n => n = s)

/-- CustomNetwork.cpp 96-106: `type discrete [ 2 ] { yes, no };`.  `node_ptr` is the node declared last. -/
def bifType (F : NetFile) (tokens : List Str) : Except Fault NetFile := do
  if (← rdAt tokens 1) ≠ lit "discrete" then .error .exit
  else do
    let size ← stoi (← rdAt tokens 3)
    let node ← if F.names.length = 0 then .error .ub else .ok (F.names.length - 1)
    let s ← rd F.net.nodes node
    let ids ← (List.range size.toNat).foldlM (fun m i => do
      let value ← trimRightComma (← rdAt tokens (6 + i))
      return m.assign value (i : Int)) (← rd F.valueIds node)
    return { F with
      net := { F.net with nodes := F.net.nodes.set node { s with dim := size.toNat } }
      valueIds := F.valueIds.set node ids }

/-- CustomNetwork.cpp 90-107: one line of the first part. -/
def bifDeclare (F : NetFile) (tokens : List Str) : Except Fault NetFile := do
  let key ← rdAt tokens 0
  if key = lit "variable" then do
    let name ← rdAt tokens 1
    return { F with
      net := { F.net with nodes := F.net.nodes ++ [{ dim := 0 }] }
      names := F.names ++ [name]
      valueIds := F.valueIds ++ [[]]
      stats := F.stats ++ [NodeStats.new] }
  else if key = lit "type" then bifType F tokens
  else return F

/-- CustomNetwork.cpp 85-112: the first part, up to the first line that begins with `probability`.  The loop does not test for the end of
the file; `none` is a loop that has not ended after so many rounds. -/
def bifVariables : Nat → NetFile → Str → InFile → Except Fault (Option (NetFile × Str × InFile))
  | 0, _, _, _ => .ok none
  | rounds + 1, F, line, f => do
    let tokens ← bifTokens line
    if (← rdAt tokens 0) = lit "probability" then return some (F, trimLeft line, f)
    else do
      let F ← bifDeclare F tokens
      let (line, f) := getline f (trimLeft line)
      bifVariables rounds F line f

/-- The state of the second part: the network, `this_node` and `parent_nodes`. -/
structure BifState where
  file : NetFile
  this : Option Nat := none
  parents : List (Option Nat) := []

/-- CustomNetwork.cpp 150-155: the names up to the closing parenthesis. -/
def bifParentNames : List Str → Except Fault (List Str)
  | [] => .error .throw
  | t :: ts =>
    if t = lit ")" then .ok []
    else do
      let name ← trimRightComma t
      return name :: (← bifParentNames ts)

/-- CustomNetwork.cpp 136-165: `probability ( LowerBodyO2 | HypDistrib, HypoxiaInO2 ) {`. -/
def bifHeader (st : BifState) (tokens : List Str) : Except Fault BifState := do
  if (← rdAt tokens 1) ≠ lit "(" then .error .exit
  else do
    let this := findByName st.file.names (← rdAt tokens 2)
    if (← rdAt tokens 3) = lit ")" then return { st with this := this, parents := [] }
    else do
      let names ← bifParentNames (tokens.drop 4)
      let parents := names.map (findByName st.file.names)
      let (net, numEdges) ← parents.foldlM (fun (acc : Net × Nat) p => do
        let p ← deref p
        let c ← deref this
        let N ← acc.1.setParentChild p c
        return ({ N with edges := N.edges ++ [mkDirected p c] }, acc.2 + 1)) (st.file.net, st.file.numEdges)
      return { file := { st.file with net := net, numEdges := numEdges }, this := this, parents := parents }

/-- `map::operator[]` read: an unknown key is added with the value 0. -/
def ValueMap.at (m : ValueMap) (key : Str) : Int × ValueMap :=
  match m.find key with
  | some i => (i, m)
  | none => (0, m.assign key 0)

/-- CustomNetwork.cpp 172-185: the parent configuration of a line. -/
def bifConfig (valueIds : List ValueMap) (parents : List (Option Nat)) (tokens : List Str) : Except Fault (List ValueMap × Config) :=
  parents.zipIdx.foldlM (fun (acc : List ValueMap × Config) x => do
    let v ← trimRightCommaAndParenthesis (trimLeftParenthesis (← rdAt tokens x.2))
    let p ← deref x.1
    let (num, m) := (← rd acc.1 p).at v
    return (acc.1.set p m, configInsert (p, num.toNat) acc.2)) (valueIds, [])

/-- CustomNetwork.cpp 166-197: `(Equal, Mild) 0.1, 0.3, 0.6;` or `table 0.2, 0.8;`. -/
def bifRow (stod : Str → Except Fault K) (toCount : K → Int) (st : BifState) (tokens : List Str) : Except Fault BifState := do
  let node ← deref st.this
  let s ← st.file.net.find node
  let numValues := (← rd st.file.valueIds node).length
  let (ids, comb) ← bifConfig st.file.valueIds st.parents tokens
  let pos := if st.parents.length > 0 then st.parents.length else 1
  let t ← (List.range numValues).foldlM (fun (t : NodeStats) i => do
    let v ← trimRightCommaAndSemicolon (← rdAt tokens (pos + i))
    let prob ← stod v
    return t.addCount s i comb (toCount prob)) (← rd st.file.stats node)
  return { st with file := { st.file with valueIds := ids, stats := st.file.stats.set node t } }

/-- CustomNetwork.cpp 132-198: one line of the second part. -/
def bifLine (stod : Str → Except Fault K) (toCount : K → Int) (st : BifState) (line : Str) : Except Fault BifState := do
  let tokens ← bifTokens line
  let key ← rdAt tokens 0
  if key = lit "probability" then bifHeader st tokens
  else if key = lit "}" then return st
  else bifRow stod toCount st tokens

/-- CustomNetwork.cpp 52-201 `LoadBIFFile` on a new network and a file that can be opened; `rounds` bounds the first loop. -/
def loadBIF (stod : Str → Except Fault K) (toCount : K → Int) (rounds : Nat) (file : Str) : Except Fault (Option NetFile) := do
  let (line, f) := getline { rest := file } []
  let (line, f) := getline f line
  let (line, f) := getline f line
  match ← bifVariables rounds { net := { nodes := [] } } line f with
  | none => return none
  | some (F, line, f) => do
    let st ← whileNotEof (bifLine stod toCount) (file.length + 1) { file := F } line f
    return some st.file

end FastPGM
