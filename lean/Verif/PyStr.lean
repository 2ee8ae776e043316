import Mathlib.Data.List.Sort
import Mathlib.Data.Char
/-!
# Python strings

Strings are lists of characters.  Only the operations applied to distribution strings.
-/

namespace PKM

/-- A Python `str`. -/
abbrev PyStr := List Char

namespace PyStr

/-- `s.split(c)` for a one-character separator (components/base.py:152, ifu_cube.py:65). -/
def split (c : Char) : PyStr → List PyStr
  | [] => [[]]
  | x :: xs => if x = c then [] :: split c xs else
      match split c xs with
      | [] => [[x]]
      | h :: t => (x :: h) :: t

/-- `s.replace("x", "xy")` (components/base.py:166-167, ifu_cube.py:66,69). -/
def replaceX : PyStr → PyStr
  | [] => []
  | c :: r => if c = 'x' then 'x' :: 'y' :: replaceX r else c :: replaceX r

/-- `s.replace("_", "")` (ifu_cube.py:169). -/
def dropUnderscore (s : PyStr) : PyStr := s.filter (fun c => c ≠ '_')

/-- `"".join(sorted(s))` (components/base.py:159). -/
def sorted (s : PyStr) : PyStr := s.insertionSort (fun a b => a ≤ b)

/-- `s.find(c)`: position of the first occurrence, or -1 (components/base.py:169). -/
def find (c : Char) : PyStr → ℤ
  | [] => -1
  | x :: r => if x = c then 0 else
      let k := find c r
      if k = -1 then -1 else k + 1

end PyStr
end PKM
