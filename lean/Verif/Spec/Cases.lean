import Verif.Basic
/-!
# Case styles, read off the input directly

A letter or digit starts a word if nothing or a separator stands before it, or at a hump: an upper-case letter whose
previous letter in the same run is lower-case, or is upper-case while a lower-case letter follows.
-/
namespace Verif.Spec
open Verif

def upperB (b : UInt8) : Bool := decide (65 ≤ b) && decide (b ≤ 90)
def lowerB (b : UInt8) : Bool := decide (97 ≤ b) && decide (b ≤ 122)
def digitB (b : UInt8) : Bool := decide (48 ≤ b) && decide (b ≤ 57)
def alnumB (b : UInt8) : Bool := upperB b || lowerB b || digitB b
def toLowB (b : UInt8) : UInt8 := if upperB b then b + 32 else b
def toUpB (b : UInt8) : UInt8 := if lowerB b then b - 32 else b

/-- The last letter in the run of letters and digits that ends `pre` (given in reverse). -/
def lastLetter (pre : Bytes) : Option UInt8 := (pre.takeWhile alnumB).find? fun b => upperB b || lowerB b

/-- `c`, between `pre` (reversed) and `post`, is at a hump. -/
def hump (pre : Bytes) (c : UInt8) (post : Bytes) : Bool :=
  match lastLetter pre with
  | none => false
  | some l => upperB c && (lowerB l || (match post with | [] => false | n :: _ => lowerB n))

/-- `c` starts a word. -/
def startsWord (pre : Bytes) (c : UInt8) (post : Bytes) : Bool :=
  match pre with
  | [] => true
  | p :: _ => !alnumB p || hump pre c post

/-- Write the words with `sep` between them, the first character of each in style `hd`, the others lower-cased. -/
def styleAt (sep : Bytes) (hd : UInt8 → UInt8) : Bytes → Bytes → Bytes
  | _, [] => []
  | pre, c :: post =>
    (if alnumB c then
      (if startsWord pre c post then (if pre.any alnumB then sep else []) ++ [hd c] else [toLowB c])
     else []) ++ styleAt sep hd (c :: pre) post

/-- snake_case -/
def snake (s : Bytes) : Bytes := styleAt [95] toLowB [] s
/-- PascalCase -/
def pascal (s : Bytes) : Bytes := styleAt [] toUpB [] s

end Verif.Spec
