import Verif.Model.DecodeReflect
import Verif.Spec.Wire
/-!
# Sizes of values and types
-/
namespace Verif.Spec

mutual
/-- How many values and bytes of text a value is made of. -/
def cells : Val → Nat
  | .str s => 1 + s.length
  | .bytes b => 1 + (b.getD []).length
  | .ptr none => 1
  | .ptr (some x) => 1 + cells x
  | .seq none => 1
  | .seq (some xs) => 1 + cellsAll xs
  | .arr xs => 1 + cellsAll xs
  | .map none => 1
  | .map (some m) => 1 + cellsMap m
  | .struct vs => 1 + cellsAll vs
  | _ => 1
def cellsAll : List Val → Nat
  | [] => 0
  | x :: xs => cells x + cellsAll xs
def cellsMap : List (Val × Val) → Nat
  | [] => 0
  | (x, y) :: m => cells x + cells y + cellsMap m
end

mutual
/-- The size of a type: four for each scalar, string and library type, one more for each type around it, two more for each struct
and array, and one more for each field; the elements of arrays as often as they occur. -/
def weight : Ty → Nat
  | .ptr t => 1 + weight t
  | .slice t => 1 + weight t
  | .array n t => 2 + n * weight t
  | .map k t => 1 + (weight k + weight t)
  | .struct fs => 2 + weights fs
  | _ => 4
def weights : Fields → Nat
  | .nil => 0
  | .cons _ t fs => 1 + (weight t + weights fs)
end

/-- Decoding a new variable of this type takes at least one byte. -/
def Takes (e : Encoding) (t : Ty) : Prop :=
  ∀ (d : Dec) v d', 0 ≤ d.pos → d.pos ≤ d.data.length → d.enc = e → decode t t.zero d = (.ok v, d') → d.pos < d'.pos

mutual
/-- A condition on the declaration that implies `Takes`: anything but interfaces, `EmptyVariant`, empty arrays, and structs all of
whose fields are such, unexported, skipped, extensions or slices with a `sizeof` field.  `sized`: there is a `sizeof` field. -/
def takes (e : Encoding) : Ty → Bool → Bool
  | .lib l, _ => l != .emptyVariant
  | .ptr t, sized => takes e t sized
  | .slice _, sized => !sized
  | .array n t, _ => n != 0 && (t.uintKind.isSome || takes e t false)
  | .struct fs, _ => (e == .borsh && fs.isEnum) || takesFields e fs []
  | .iface, _ => false
  | _, _ => true
def takesFields (e : Encoding) : Fields → List Bytes → Bool
  | .nil, _ => false
  | .cons m t fs, names =>
    if m.tag.skip then takesFields e fs names
    else
      (m.exported && !m.tag.binExt &&
        (if e = .borsh ∧ t.directLib.isSome then takes e t false
        else m.tag.option || (e == .borsh && m.tag.coption) || takes e t (names.contains m.name))) ||
      takesFields e fs (announced m names)
end

mutual
/-- All slice elements and all map entries in the type take at least one byte. -/
def Feeds (e : Encoding) : Ty → Prop
  | .ptr t => Feeds e t
  | .slice t => Takes e t ∧ Feeds e t
  | .array _ t => Feeds e t
  | .map k t => (Takes e k ∨ Takes e t) ∧ Feeds e k ∧ Feeds e t
  | .struct fs => FeedsAll e fs
  | _ => True
def FeedsAll (e : Encoding) : Fields → Prop
  | .nil => True
  | .cons _ t fs => Feeds e t ∧ FeedsAll e fs
end

mutual
/-- The same, by the declaration. -/
def feeds (e : Encoding) : Ty → Bool
  | .ptr t => feeds e t
  | .slice t => takes e t false && feeds e t
  | .array _ t => feeds e t
  | .map k t => (takes e k false || takes e t false) && feeds e k && feeds e t
  | .struct fs => feedsAll e fs
  | _ => true
def feedsAll (e : Encoding) : Fields → Bool
  | .nil => true
  | .cons _ t fs => feeds e t && feedsAll e fs
end

end Verif.Spec
