import Verif.Spec.LearnCommands
import Mathlib.Logic.Relation

/-!
What the classification command writes: the learned graph completed to an acyclic directed graph with the additional node ROOT, and the
frequencies of the training table completed by the drawn values of ROOT.
-/

namespace FastPGM.Spec

/-- The graph that the classification command learns from a skeleton `G` on `n` variables: all edges are directed, without a cycle, the
v-structures demanded by the separating sets among them; node `n` is ROOT, an additional parent of exactly one variable of every connected
part of the skeleton, and this variable has no other parent. -/
structure RootedGraph (n : Nat) (G : Nat → Nat → Prop) (sep : Sepset) (P : Nat → Nat → Prop) : Prop where
  acyclic : ¬ Cyclic P
  range : ∀ x y, P x y → x ≤ n ∧ y < n
  skeleton : ∀ x y, x < n → y < n → (G x y ↔ P x y ∨ P y x)
  demanded : ∀ x y, VArrow G sep x y → P x y
  alone : ∀ x y, P n y → P x y → x = n
  one : ∀ i < n, ∃! r, P n r ∧ Relation.ReflTransGen G r i

/-- The names of the values of the variables and of ROOT. -/
def rootedValues (train : List (List Str)) (n : Nat) : Nat → List Str := fun v =>
  if v < n then firstSeen (column train v) else [lit "0", lit "1"]

/-- The training table completed by values of ROOT, as it is used for the table of one variable. -/
def completedRows (train : List (List Str)) (n : Nat) (root : Nat → Nat) : List Assignment :=
  (train.map (rowAssignment train)).mapIdx (fun j r => r.set n (root j))

variable {K : Type}

/-- The parameter file of the classification command.  `rnd i` are the values of ROOT drawn for the table of variable `i`. -/
def rootedText [Field K] (fmt : K → Str) (names : List Str) (train : List (List Str)) (n : Nat) (parents : Nat → List Nat) (rnd : Nat → Nat → Nat) :
    Str :=
  textOf (((List.range n).flatMap (fun i => (configsOf ((i :: parents i).map (valuesOf train n))).map (fun c =>
      parameterLine (columnNames names n ++ [lit "ROOT"]) (rootedValues train n) i (parents i) c
        (fmt (smoothedFrequency (completedRows train n (rnd i)) (valuesOf train n) i (parents i) c))))) ++
    [[0], [1]].map (fun c => parameterLine (columnNames names n ++ [lit "ROOT"]) (rootedValues train n) n [] c
      (fmt ((((train.length / 2 : Nat) : K) + 1) / ((train.length : K) + 2)))))

end FastPGM.Spec
