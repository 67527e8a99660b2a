import Verif.Spec.Wire
/-!
# Spec: the order of values and the order of byte strings

Databases compare keys byte by byte.  `Sortable` are the types whose encodings compare like their values.
-/
namespace Verif.Spec
open Verif

/-- Byte by byte, as `bytes.Compare`. -/
def bytesCmp : Bytes → Bytes → Ordering
  | [], [] => .eq
  | [], _ :: _ => .lt
  | _ :: _, [] => .gt
  | a :: as, b :: bs => (compare a.toNat b.toNat).then (bytesCmp as bs)

/-- Element by element. -/
def cmpAll {α : Type} (f : α → α → Ordering) : List α → List α → Ordering
  | [], [] => .eq
  | [], _ :: _ => .lt
  | _ :: _, [] => .gt
  | x :: xs, y :: ys => (f x y).then (cmpAll f xs ys)

mutual
/-- The order of values: false before true, numbers by size, arrays and structs by the first place where they differ. -/
def valCmp : Ty → Val → Val → Ordering
  | .array _ t, .arr xs, .arr ys => cmpAll (fun x y => valCmp t x y) xs ys
  | .struct fs, .struct vs, .struct ws => fieldsCmp fs vs ws
  | _, .bool a, .bool b => compare a.toNat b.toNat
  | _, .uint a, .uint b => compare a b
  | _, .u128 lo hi _, .u128 lo' hi' _ => (compare hi hi').then (compare lo lo')
  | _, _, _ => .eq
def fieldsCmp : Fields → List Val → List Val → Ordering
  | .cons _ t fs, v :: vs, w :: ws => (valCmp t v w).then (fieldsCmp fs vs ws)
  | _, _, _ => .eq
end

mutual
/-- Types that sort: booleans, single bytes, unsigned integers that are written big endian, arrays and structs of such. -/
def Sortable (e : Encoding) : Ty → Order → Bool
  | .bool, _ => true
  | .borshEnum, _ => true
  | .uint w _, o => w == .w8 || (o == .be && e != .borsh)
  | .lib l, o =>
    match l with
    | .bool => true
    | .uint64 | .uint128 => o == .be
    | _ => false
  -- the tag of an array field does not reach the elements
  | .array _ t, _ => Sortable e t .le
  | .struct fs, _ => !(e == .borsh && fs.isEnum) && SortableFields e fs
  | _, _ => false
def SortableFields (e : Encoding) : Fields → Bool
  | .nil => true
  | .cons m t fs => m.exported && !m.tag.skip && !m.tag.option && !(e == .borsh && m.tag.coption) && (m.tag.sizeOf == []) &&
      Sortable e t m.tag.order && SortableFields e fs
end

end Verif.Spec
