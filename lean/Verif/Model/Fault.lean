import Mathlib.Logic.Basic

/-!
Outcomes of C++ code that are not ordinary results, and the checked array accesses used by the model.
-/

namespace FastPGM

/-- What can happen instead of a result.
* `ub`    – undefined behaviour (out-of-bounds access, division of integers by zero, use of an indeterminate value, ...);
* `exit`  – the program calls `exit(1)`;
* `throw` – an uncaught C++ exception (`std::out_of_range` from `.at`, ...);
* `nan`   – a floating-point division by zero, whose result is NaN or an infinity. -/
inductive Fault where
  | ub | exit | throw | nan
  deriving DecidableEq, Repr

/-- Read `l[i]`; out of bounds is undefined behaviour. -/
def rd {α : Type} (l : List α) (i : Nat) : Except Fault α :=
  match l[i]? with
  | some a => .ok a
  | none => .error .ub

/-- Write `l[i] = a`; out of bounds is undefined behaviour. -/
def wr {α : Type} (l : List α) (i : Nat) (a : α) : Except Fault (List α) :=
  if i < l.length then .ok (l.set i a) else .error .ub

/-- `v.at(i)`; out of bounds throws. -/
def rdAt {α : Type} (l : List α) (i : Nat) : Except Fault α :=
  match l[i]? with
  | some a => .ok a
  | none => .error .throw

end FastPGM
