import Verif.Spec.Params
import Verif.Spec.Posterior
import Verif.Spec.Graph
import Verif.Spec.Network
import Verif.Spec.Strings
import Verif.Model.XmlNetwork

/-!
Specification side of network files: what such a file says, independently of its syntax.
-/

namespace FastPGM.Spec

open FastPGM

variable {K : Type}

/-- A variable and the names of its values. -/
structure VarDecl where
  name : Str
  values : List Str

/-- The numbers given for one node, in the order of the file, and the variables they are given for. -/
structure TableDecl (K : Type) where
  node : Nat
  given : List Nat
  entries : List K

/-- The edges of the file. -/
def DeclEdge (ts : List (TableDecl K)) (p c : Nat) : Prop := ∃ t ∈ ts, t.node = c ∧ p ∈ t.given

/-- Number of values of a variable. -/
def declCard (vs : List VarDecl) (i : Nat) : Nat := (vs.map (fun v => v.values.length)).getD i 0

/-- A description of a Bayesian network: distinct names, distinct values, one table for every variable, whose parents are distinct
variables, with as many numbers as there are combinations of values; no directed cycle. -/
structure GoodDescription (vs : List VarDecl) (ts : List (TableDecl K)) : Prop where
  nonempty : vs ≠ []
  names : (vs.map VarDecl.name).Nodup
  values : ∀ v ∈ vs, v.values.Nodup ∧ v.values ≠ []
  nodes : (ts.map TableDecl.node).Perm (List.range vs.length)
  given : ∀ t ∈ ts, t.given.Nodup ∧ ∀ p ∈ t.given, p < vs.length
  size : ∀ t ∈ ts, t.entries.length = declCard vs t.node * (t.given.map (declCard vs)).prod
  acyclic : ¬ Cyclic (DeclEdge ts)

/-- A text that lists the numbers, separated by single blanks, with white space around. -/
def ListsNumbers (stod : Str → Except Fault K) (text : Str) (entries : List K) : Prop :=
  ∃ (pre post : Str) (tokens : List Str), text = pre ++ List.intercalate [32] tokens ++ post ∧ (∀ c ∈ pre ++ post, c < 33) ∧ tokens ≠ [] ∧
    (∀ t ∈ tokens, t ≠ [] ∧ ∀ c ∈ t, 33 ≤ c) ∧ List.Forall₂ (fun t e => stod t = .ok e) tokens entries

/-- The XML document says what the description says: variables in order, and for every table a `PROBABILITY` element with the names of
the node and of its parents and the numbers. -/
structure XmlDescribes (stod : Str → Except Fault K) (doc : XmlDoc) (vs : List VarDecl) (ts : List (TableDecl K)) : Prop where
  name : doc.name ≠ none
  vars : doc.vars = vs.map (fun v => ⟨some v.name, some (lit "discrete"), v.values.map some⟩)
  probs : List.Forall₂ (fun (t : TableDecl K) (p : XmlProb) => p.node = (vs[t.node]?).map VarDecl.name ∧
    p.givens = t.given.map (fun g => (vs[g]?).map VarDecl.name) ∧ ∃ text, p.table = some text ∧ ListsNumbers stod text t.entries) ts doc.probs

/-- The values of a variable, numbered from 0 in the order of the file. -/
def numbered (values : List Str) : ValueMap := values.zipIdx.map (fun x => (x.1, (x.2 : Int)))

/-- The number of the file for an assignment, as an integer count. -/
def declCount (toCount : K → Int) (card : Nat → Nat) (t : TableDecl K) (a : Assignment) : Int :=
  ((t.entries[tablePosition card t.node t.given a]?).map toCount).getD 0

/-- The conditional probability that the numbers of the file stand for: counts, smoothed by the constant 1. -/
noncomputable def fileEntry [Field K] (toCount : K → Int) (card : Nat → Nat) (t : TableDecl K) (a : Assignment) : K :=
  ((declCount toCount card t a : K) + 1) /
    ((∑ x ∈ Finset.range (card t.node), (declCount toCount card t (a.set t.node x) : K)) + (card t.node : K))

/-- The loaded network says what the description says: names, value codes, numbers of values, and exactly the edges of the tables, in the
parent sets, in the child sets and in the edge list (there once each). -/
structure HoldsNetwork (vs : List VarDecl) (ts : List (TableDecl K)) (F : NetFile) : Prop where
  names : F.names = vs.map VarDecl.name
  values : F.valueIds = vs.map (fun v => numbered v.values)
  size : F.net.nodes.length = vs.length
  dim : ∀ (i : Nat) s, F.net.nodes[i]? = some s → s.dim = declCard vs i
  parents : ∀ p c, ParentOf F.net p c ↔ DeclEdge ts p c
  children : ∀ p c, ChildOf F.net p c ↔ DeclEdge ts p c
  edges : F.net.edges.Nodup ∧ ∀ e, e ∈ F.net.edges ↔ ∃ p c, DeclEdge ts p c ∧ e = { node1 := p, node2 := c, end1 := .tail, end2 := .arrow }
  count : F.numEdges = F.net.edges.length
  topo : F.net.topo = []

end FastPGM.Spec
