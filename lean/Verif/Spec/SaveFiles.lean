import Verif.Spec.Dataset
import Verif.Model.Parameter
import Verif.Spec.Factor
import Verif.Spec.Orientation

/-!
Specification of the files that learning writes.
-/

namespace FastPGM.Spec

open FastPGM

/-- A variable in a file: its name and its index. -/
def nodeLabel (names : List Str) (i : Nat) : Str := names.getD i [] ++ lit "/v" ++ intToStr i

/-- The first line of a structure file. -/
def structureHead (nodes edges : Nat) : Str :=
  lit "number of nodes = " ++ intToStr nodes ++ lit ", number of edges = " ++ intToStr edges

/-- Line `k` of a structure file: the nodes, and whether the edge is an arrow. -/
def edgeLine (names : List Str) (e : Nat × Nat × Bool) (k : Nat) : Str :=
  intToStr k ++ lit ": " ++ nodeLabel names e.1 ++ (if e.2.2 then lit " -> " else lit " -- ") ++ nodeLabel names e.2.1

/-- The structure file with the given edges. -/
def structureText (names : List Str) (nodes numEdges : Nat) (edges : List (Nat × Nat × Bool)) : Str :=
  textOf (structureHead nodes numEdges :: edges.mapIdx (fun k e => edgeLine names e k))

/-- The lines name every arrow `x → y` of a partially directed graph and every undirected edge, each once. -/
structure NamesEdges (G P : Nat → Nat → Prop) (ls : List (Nat × Nat × Bool)) : Prop where
  once : ls.Nodup
  arrows : ∀ x y, (x, y, true) ∈ ls ↔ P x y
  undirected : ∀ x y, (x, y, false) ∈ ls ↔ x < y ∧ Undirected G P x y

/-- All configurations of variables with the given numbers of values, the last variable fastest. -/
def configsOf : List Nat → List (List Nat)
  | [] => [[]]
  | d :: ds => (List.range d).flatMap (fun x => (configsOf ds).map (x :: ·))

/-- The value of a variable in a parameter file. -/
def valueLabel (names : List Str) (values : Nat → List Str) (v x : Nat) : Str :=
  nodeLabel names v ++ lit "=" ++ (values v).getD x [] ++ lit "/" ++ intToStr x

/-- A line of a parameter file: a conditional probability. -/
def parameterLine (names : List Str) (values : Nat → List Str) (i : Nat) (parents : List Nat) (config : List Nat) (number : Str) : Str :=
  lit "P (" ++ valueLabel names values i (config.getD 0 0) ++
    (if parents = [] then [] else
      lit " | " ++ List.intercalate (lit ", ") ((List.range parents.length).map (fun k => valueLabel names values (parents.getD k 0) (config.getD (k + 1) 0)))) ++
    lit ") = " ++ number

/-- The configuration of the variables as an assignment. -/
def ofConfig (vs config : List Nat) : Assignment := fun v => config.getD (vs.idxOf v) 0

/-- The parameter file: for every node all its conditional probabilities. -/
def parameterText {K : Type} [Zero K] (fmt : K → Str) (names : List Str) (values : Nat → List Str) (pts : List (Table K)) : Str :=
  textOf (pts.mapIdx (fun i T => (configsOf T.dims).map (fun c =>
    parameterLine names values i T.vars.tail c (fmt (value T (ofConfig T.vars c)))))).flatten

/-- The map of a node from names to numbers names each of its values, once. -/
def NamesValues (m : List (Str × Int)) (values : List Str) (d : Nat) : Prop :=
  d ≤ values.length ∧ ∀ x < d, ∀ s, (s, (x : Int)) ∈ m ↔ s = values.getD x []

end FastPGM.Spec
