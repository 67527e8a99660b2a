import Verif.Proofs.Rename
import Verif.Model.Interface
/-!
# C116: The names of struct fields are not part of the format
-/
namespace Verif.Props
open Spec

/-- Encoding does the same under other names, for every value and in every state: the same bytes, the same errors, the same
panics. -/
theorem C116_encode {ρ : Bytes → Bytes} (h : Renaming ρ) (t : Ty) (v : Val) : encode (renamed ρ t) v = encode t v := by
  simp only [encode, renamed_encCore h]

/-- So does decoding, for every input and every value that was there before. -/
theorem C116_decode {ρ : Bytes → Bytes} (h : Renaming ρ) (t : Ty) (old : Val) : decode (renamed ρ t) old = decode t old := by
  simp only [decode, renamed_decCore h]

/-- What was written under the old names is read under the new ones, and the other way round. -/
theorem C116_exchange {ρ : Bytes → Bytes} (h : Renaming ρ) (e : Encoding) (t : Ty) (v : Val) :
    unmarshal e (renamed ρ t) (renamed ρ t).zero (marshal e t v).2 = unmarshal e t t.zero (marshal e t v).2 ∧
    unmarshal e t t.zero (marshal e (renamed ρ t) v).2 = unmarshal e t t.zero (marshal e t v).2 := by
  constructor
  · simp only [unmarshal, C116_decode h, renamed_zero]
  · simp only [marshal, C116_encode h]

/-- `struct { N uint8 "sizeof=A"; A []uint16 }` with the given names. -/
def countedTy (n s a : Bytes) : Ty :=
  .struct (.cons { name := n, tag := { sizeOf := s } } (.uint .w8 false) (.cons { name := a } (.slice (.uint .w16 false)) .nil))

def countedVal : Val := .struct [.uint 2, .seq (some [.uint 1, .uint 2])]

/-- `X` in front of every name. -/
def withX (b : Bytes) : Bytes := if b = [] then [] else 88 :: b

theorem withX_renaming : Renaming withX := by
  refine ⟨fun a b h => ?_, rfl⟩
  unfold withX at h
  by_cases ha : a = [] <;> by_cases hb : b = [] <;> simp_all

example : renamed withX (countedTy [78] [65] [65]) = countedTy [88, 78] [88, 65] [88, 65] := rfl
example : marshal .bin (countedTy [78] [65] [65]) countedVal = (.ok (), [2, 1, 0, 2, 0]) := by decide +kernel
example : marshal .bin (countedTy [88, 78] [88, 65] [88, 65]) countedVal = (.ok (), [2, 1, 0, 2, 0]) := by decide +kernel
example : unmarshal .bin (countedTy [88, 78] [88, 65] [88, 65]) (countedTy [88, 78] [88, 65] [88, 65]).zero [2, 1, 0, 2, 0] =
    .ok countedVal := rfl

/-- The `sizeof` tag has to be renamed with the field it names: left behind, it names nothing, and the slice gets a length of
its own.  (A `ρ` that sends two names to one could undo this; `Renaming` excludes it.) -/
theorem C116_tag_left_behind :
    marshal .bin (countedTy [78] [65] [66]) countedVal = (.ok (), [2, 2, 1, 0, 2, 0]) := by decide +kernel

/-- A name that starts with a small letter is another matter: the field is then not written (in Go that is `exported`, which `renamed`
keeps). -/
theorem C116_small_letter :
    let t (x : Bool) : Ty := .struct (.cons { name := [65], exported := x } (.uint .w8 false) .nil)
    marshal .bin (t true) (.struct [.uint 5]) = (.ok (), [5]) ∧ marshal .bin (t false) (.struct [.uint 5]) = (.ok (), []) := by
  decide +kernel

end Verif.Props
