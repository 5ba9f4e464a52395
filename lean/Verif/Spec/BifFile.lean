import Verif.Spec.NetFile
import Verif.Spec.Dataset

/-!
Specification side of BIF files: which texts say the same as a description of a network.
-/

namespace FastPGM.Spec

open FastPGM

variable {K : Type}

/-- A line with these words: white space, then the words with single blanks between them. -/
def IsLine (words : List Str) (line : Str) : Prop :=
  ∃ pre : Str, (∀ c ∈ pre, c < 33 ∧ c ≠ 10) ∧ line = pre ++ List.intercalate [32] words

/-- A comma after every word but the last, which is followed by `last`. -/
def commas (last : Str) : List Str → List Str
  | [] => []
  | [x] => [x ++ last]
  | x :: y :: r => (x ++ lit ",") :: commas last (y :: r)

/-- `variable NAME {`, `type discrete [ 2 ] { yes, no };`, `}` -/
def varLines (v : VarDecl) : List (List Str) :=
  [[lit "variable", v.name, lit "{"],
   [lit "type", lit "discrete", lit "[", intToStr v.values.length, lit "]", lit "{"] ++ commas [] v.values ++ [lit "};"],
   [lit "}"]]

/-- `probability ( NAME | PARENT1, PARENT2 ) {` or `probability ( NAME ) {` -/
def headerWords (name : Str) (parents : List Str) : List Str :=
  if parents = [] then [lit "probability", lit "(", name, lit ")", lit "{"]
  else [lit "probability", lit "(", name, lit "|"] ++ commas [] parents ++ [lit ")", lit "{"]

/-- An opening parenthesis before the first word. -/
def opened : List Str → List Str
  | [] => []
  | x :: r => (lit "(" ++ x) :: r

/-- `(Equal, Mild) 0.1, 0.3, 0.6;` or `table 0.2, 0.8;` -/
def rowWords (values numbers : List Str) : List Str :=
  (if values = [] then [lit "table"] else opened (commas (lit ")") values)) ++ commas (lit ";") numbers

/-- The name of a variable, and the name of one of its values. -/
def nameOf (vs : List VarDecl) (i : Nat) : Str := (vs.map VarDecl.name).getD i []

def valueOf (vs : List VarDecl) (i x : Nat) : Str := ((vs.map VarDecl.values).getD i []).getD x []

/-- The lines of a table: for every row the values of the parents and the numbers. -/
def tableLines (vs : List VarDecl) (node : Nat) (given : List Nat) (rows : List (List Nat × List Str)) : List (List Str) :=
  headerWords (nameOf vs node) (given.map (nameOf vs)) ::
    (rows.map (fun r => rowWords ((given.zip r.1).map (fun x => valueOf vs x.1 x.2)) r.2) ++ [[lit "}"]])

/-- A word: no white space, no opening parenthesis at its beginning, and none of `,` `)` `;` at its end. -/
def IsWord (w : Str) : Prop := w ≠ [] ∧ (∀ c ∈ w, 33 ≤ c) ∧ w.head? ≠ some 40 ∧ ∀ c ∈ [44, 41, 59], w.getLast? ≠ some c

/-- The rows give the numbers of the table: every combination of values of the parents once, and for each the numbers of the values of
the node. -/
structure BifRows (stod : Str → Except Fault K) (card : Nat → Nat) (t : TableDecl K) (rows : List (List Nat × List Str)) : Prop where
  once : (rows.map Prod.fst).Nodup
  all : ∀ u, u ∈ rows.map Prod.fst ↔ List.Forall₂ (fun x g => x < card g) u t.given
  words : ∀ r ∈ rows, r.2.length = card t.node ∧ ∀ w ∈ r.2, IsWord w
  numbers : ∀ r ∈ rows, ∀ a, InRange card (t.node :: t.given) a → t.given.map a = r.1 → ∃ w e, r.2[a t.node]? = some w ∧
    t.entries[tablePosition card t.node t.given a]? = some e ∧ stod w = .ok e

/-- The text of a BIF file with this description: two lines, the variables, the tables. -/
def BifDescribes (stod : Str → Except Fault K) (file : Str) (vs : List VarDecl) (ts : List (TableDecl K)) : Prop :=
  ∃ (first second : Str) (lines : List Str) (blocks : List (List (List Nat × List Str))),
    10 ∉ first ∧ 10 ∉ second ∧ file = textOf (first :: second :: lines) ∧
    List.Forall₂ IsLine (vs.flatMap varLines ++ (ts.zip blocks).flatMap (fun x => tableLines vs x.1.node x.1.given x.2)) lines ∧
    List.Forall₂ (BifRows stod (declCard vs)) ts blocks ∧
    ∀ v ∈ vs, IsWord v.name ∧ (∀ w ∈ v.values, IsWord w) ∧ v.values.length ≤ 2147483647

end FastPGM.Spec
