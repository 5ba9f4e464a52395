import Verif.Model.Strings

/-!
Specification side of splitting and trimming.
-/

namespace FastPGM.Spec

open FastPGM

/-- Put the separators `ds` between the pieces `ps`. -/
def weave : List Str → Str → Str
  | [], _ => []
  | [p], _ => p
  | p :: q :: qs, d :: ds => p ++ d :: weave (q :: qs) ds
  | p :: _ :: _, [] => p

/-- `m` is `s` without its outer characters of value below 33 (space and control characters; `char` is signed). -/
def IsTrimmed (s m : Str) : Prop :=
  ∃ pre post, s = pre ++ m ++ post ∧ (∀ c ∈ pre, c < 33) ∧ (∀ c ∈ post, c < 33) ∧
    (∀ c, m.head? = some c → 33 ≤ c) ∧ ∀ c, m.getLast? = some c → 33 ≤ c

end FastPGM.Spec
