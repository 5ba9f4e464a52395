import Verif.Model.Fault

/-!
Model of the string helpers of src/fastpgm/common.cpp 77-141.

A string is the list of its `char` values (`char` is signed on the supported platforms, so a value lies in [-128, 127]).
-/

namespace FastPGM

/-- A byte string: the values of its `char`s. -/
abbrev Str := List Int

/-- common.cpp 78: `s[...] < 33`, the characters that are trimmed.  Because `char` is signed, bytes above 127 are included. -/
def blank (c : Int) : Bool := c < 33

/-- common.cpp 77-82 `TrimRight`: while the string is non-empty and its last character is below 33, erase it. -/
def trimRight (s : Str) : Str :=
  if h : s = [] then s
  else if blank (s.getLast h) then trimRight s.dropLast else s
termination_by s.length
decreasing_by
  have := List.length_pos_iff.2 h
  simp; omega

/-- common.cpp 115-120 `TrimLeft`. -/
def trimLeft : Str → Str
  | [] => []
  | c :: cs => if blank c then trimLeft cs else c :: cs

/-- common.cpp 125-127 `Trim`. -/
def trim (s : Str) : Str := trimLeft (trimRight s)

/-- common.cpp 84-89, 98-103, 105-110: erase the last character if it is one of `cs`.  The character is read without a test for
emptiness, which is undefined for the empty string. -/
def trimRightOne (cs : List Int) (s : Str) : Except Fault Str :=
  match s.getLast? with
  | none => .error .ub
  | some c => if c ∈ cs then .ok s.dropLast else .ok s

/-- common.cpp 84-89 `TrimRightComma`. -/
def trimRightComma : Str → Except Fault Str := trimRightOne [44]

/-- common.cpp 98-103 `TrimRightCommaAndParenthesis`. -/
def trimRightCommaAndParenthesis : Str → Except Fault Str := trimRightOne [44, 41]

/-- common.cpp 105-110 `TrimRightCommaAndSemicolon`. -/
def trimRightCommaAndSemicolon : Str → Except Fault Str := trimRightOne [44, 59]

/-- common.cpp 91-96 `TrimLeftParenthesis`. -/
def trimLeftParenthesis : Str → Str
  | [] => []
  | c :: cs => if c = 40 then cs else c :: cs

/-- `std::string::find_first_of(delimiter, begin)`. -/
def findFirstOf (s delims : Str) (begin : Nat) : Option Nat :=
  ((s.drop begin).findIdx? (fun c => c ∈ delims)).map (· + begin)

/-- `std::string::substr(pos, len)`; throws when `pos > size`. -/
def substr (s : Str) (pos len : Nat) : Except Fault Str :=
  if pos > s.length then .error .throw else .ok ((s.drop pos).take len)

theorem findFirstOf_bounds {s delims : Str} {b e : Nat} (h : findFirstOf s delims b = some e) : b ≤ e ∧ e < s.length := by
  unfold findFirstOf at h
  rw [Option.map_eq_some_iff] at h
  obtain ⟨k, hk, rfl⟩ := h
  obtain ⟨hlt, _⟩ := List.findIdx?_eq_some_iff_getElem.1 hk
  rw [List.length_drop] at hlt
  omega

/-- common.cpp 135-139, the loop of `Split` from position `begin` on. -/
def splitFrom (s delims : Str) (begin : Nat) : Except Fault (List Str) :=
  match h : findFirstOf s delims begin with
  | some e => do
    let p ← substr s begin (e - begin)
    let rest ← splitFrom s delims (e + 1)
    return p :: rest
  | none => do
    let p ← substr s begin (s.length - begin)
    return [p]
termination_by s.length - begin
decreasing_by
  have := findFirstOf_bounds h
  omega

/-- common.cpp 132-141 `Split`. -/
def split (s delims : Str) : Except Fault (List Str) := splitFrom s delims 0

end FastPGM
