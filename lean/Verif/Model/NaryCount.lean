import Verif.Model.Fault

/-!
Model of `NaryCount` (src/fastpgm/common.cpp 146-218).
-/

namespace FastPGM

/-- common.cpp 176-195: add one to the digit at the head of `order`; while the digit overflows and another digit follows in
`check_digit_order`, set it to 0 and carry. -/
def naryIncrement (ranges : List Nat) : List Nat → List Nat → Except Fault (List Nat)
  | [], count => .ok count
  | d :: rest, count => do
    let c ← rd count d
    let count ← wr count d (c + 1)
    let r ← rd ranges d
    if c + 1 ≥ r ∧ rest ≠ [] then do
      let count ← wr count d 0
      naryIncrement ranges rest count
    else return count

/-- common.cpp 146-218 `NaryCount`.  `check_digit_order` (164-169) is `1, 2, ..., n-1, 0`; for no digit at all it is `0`, and the
loop body reads `single_count[0]` of an empty vector. -/
def naryCount (ranges : List Nat) : Except Fault (List (List Nat)) := do
  let order := List.range' 1 (ranges.length - 1) ++ [0]
  let (res, _) ← (List.range ranges.prod).foldlM (fun (s : List (List Nat) × List Nat) _ => do
    let count ← naryIncrement ranges order s.2
    return (s.1 ++ [s.2], count)) ([], List.replicate ranges.length 0)
  return res

end FastPGM
