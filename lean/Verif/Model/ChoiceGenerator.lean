import Verif.Model.Fault

/-!
Model of `ChoiceGenerator` (src/fastpgm/ChoiceGenerator.cpp).
-/

namespace FastPGM

/-- include/fastpgm/ChoiceGenerator.h 25-28.  `b` is kept as a natural number: the constructor has checked `b >= 0`.  The field `a` is
only used by the constructor and is left out. -/
structure ChoiceGen where
  b : Nat
  diff : Int
  choice : List Int
  deriving DecidableEq, Repr

/-- ChoiceGenerator.cpp 14-34, the constructor.  For `b = 0` the array is `[-2]`. -/
def choiceGenerator (a b : Int) : Except Fault ChoiceGen :=
  if a < 0 ∨ b < 0 ∨ a < b then .error .exit
  else .ok ⟨b.toNat, a - b, ((List.range (b.toNat - 1)).map (fun i : Nat => (i : Int))) ++ [b - 2]⟩

/-- ChoiceGenerator.cpp 65-70, the `while (--i > -1)` scan started with `i`. -/
def scanChoice (choice : List Int) (diff : Int) : Nat → Except Fault (Option Nat)
  | 0 => .ok none
  | i + 1 => do
    let c ← rd choice i
    if c < i + diff then return some i else scanChoice choice diff i

/-- ChoiceGenerator.cpp 79-85 `Fill`. -/
def fillChoice (b : Nat) (choice : List Int) (index : Nat) : Except Fault (List Int) := do
  let c ← rd choice index
  let choice ← wr choice index (c + 1)
  (List.range (b - (index + 1))).foldlM (fun ch k => do
    let p ← rd ch (index + k)
    wr ch (index + 1 + k) (p + 1)) choice

/-- ChoiceGenerator.cpp 55-72 `Next`: the returned vector and the new state. -/
def ChoiceGen.next (g : ChoiceGen) : Except Fault (List Int × ChoiceGen) :=
  if g.choice = [] then .ok ([], g)
  else do
    match ← scanChoice g.choice g.diff g.b with
    | some i => do
      let ch ← fillChoice g.b g.choice i
      return (ch, { g with choice := ch })
    | none => return ([], g)

/-- ChoiceGenerator.cpp 41-50 `NextN`. -/
def ChoiceGen.nextN (g : ChoiceGen) : Nat → Except Fault (List (List Int) × ChoiceGen)
  | 0 => .ok ([], g)
  | n + 1 => do
    let (c, g) ← g.next
    let (cs, g) ← g.nextN n
    return (c :: cs, g)

end FastPGM
