import Verif.Spec.Factor
import Verif.Spec.Network

/-!
Specification side of conditional probability tables and parameter learning.
-/

namespace FastPGM.Spec

open FastPGM

/-- The parent configuration an assignment induces. -/
def configOf (a : Assignment) (parents : List Nat) : Config := parents.map (fun p => (p, a p))

/-- Number of instances that give the variables `vs` the same values as `a`. -/
def countSame (rows : List Assignment) (vs : List Nat) (a : Assignment) : Nat :=
  rows.countP (fun r => vs.all (fun v => r v == a v))

/-- `rows` are the instances stored column by column in `cols`: `rows[j] v = cols[v][j]` for all `numVars` variables, every value
being a legal one. -/
structure Columns (card : Nat → Nat) (numVars : Nat) (cols : List (List Nat)) (rows : List Assignment) : Prop where
  get : ∀ v < numVars, ∃ col, cols[v]? = some col ∧ ∀ (j : Nat) r, rows[j]? = some r → col[j]? = some (r v)
  lt : ∀ r ∈ rows, ∀ v < numVars, r v < card v

/-- The network's nodes have `card v` values each, at least one; the parents of a node are nodes, in increasing order, and do not
contain the node. -/
structure NetShape (card : Nat → Nat) (N : Net) : Prop where
  dim : ∀ (i : Nat) s, N.nodes[i]? = some s → s.dim = card i ∧ 0 < card i
  parents : ∀ (i : Nat) s, N.nodes[i]? = some s → s.parents.Pairwise (· < ·) ∧ (∀ p ∈ s.parents, p < N.nodes.length) ∧ i ∉ s.parents

/-- Sum of the counts of the calls for value `x` and configuration `u`. -/
def countedFor (calls : List (Nat × Config × Int)) (x : Nat) (u : Config) : Int :=
  ((calls.filter (fun c => c.1 = x ∧ c.2.1 = u)).map (fun c => c.2.2)).sum

/-- Sum of the counts of the calls for configuration `u`. -/
def countedTotal (calls : List (Nat × Config × Int)) (u : Config) : Int :=
  ((calls.filter (fun c => c.2.1 = u)).map (fun c => c.2.2)).sum

/-- A learned table: node and parents, and the smoothed relative frequencies `(N(x,u)+alpha)/(N(u)+alpha·r)` of the instances. -/
def IsFrequencyTable {K : Type} [Field K] (card : Nat → Nat) (rows : List Assignment) (alpha : Int) (i : Nat) (ps : List Nat) (T : Table K) : Prop :=
  WellFormed card T ∧ T.vars = i :: ps ∧
    ∀ a, InRange card (i :: ps) a →
      value T a = ((countSame rows (i :: ps) a : K) + (alpha : K)) / ((countSame rows ps a : K) + (alpha : K) * (card i : K))

/-- Position, in the TABLE element, of the number for an assignment: the node's value is most significant, then the *last* given
variable, ..., and the first given variable varies fastest. -/
def tablePosition (card : Nat → Nat) (node : Nat) (given : List Nat) (a : Assignment) : Nat :=
  a node * (given.map card).prod + rank (given.reverse.map card) (given.reverse.map a)

end FastPGM.Spec
