import Verif.Model.Types
/-!
# Go's `==` on map keys

The same value, with three exceptions: floats are compared as numbers, pointers are equal only when both are nil (every
pointer made by a decoder is a new one), and arrays and structs are compared piece by piece.
-/
namespace Verif.Spec

/-- IEEE 754 NaN: all exponent bits set and a non-zero mantissa. -/
def IsNaN (mantissa exponent n : Nat) : Prop := n / 2 ^ mantissa % 2 ^ exponent = 2 ^ exponent - 1 ∧ n % 2 ^ mantissa ≠ 0

/-- The bit patterns stand for the same number, 64 bits. -/
def SameNumber64 (x y : Nat) : Prop :=
  ¬ IsNaN 52 11 x ∧ ¬ IsNaN 52 11 y ∧ (x = y ∨ (x = 0 ∨ x = 2 ^ 63) ∧ (y = 0 ∨ y = 2 ^ 63))

/-- The bit patterns stand for the same number, 32 bits. -/
def SameNumber32 (x y : Nat) : Prop :=
  ¬ IsNaN 23 8 x ∧ ¬ IsNaN 23 8 y ∧ (x = y ∨ (x = 0 ∨ x = 2 ^ 31) ∧ (y = 0 ∨ y = 2 ^ 31))

mutual
def GoEqual : Ty → Val → Val → Prop
  | .f32, .float x, .float y => SameNumber32 x y
  | .f64, .float x, .float y => SameNumber64 x y
  | .lib .jsonFloat64, .float x, .float y => SameNumber64 x y
  | .ptr _, x, y => x = .ptr none ∧ y = .ptr none
  | .array _ t, .arr xs, .arr ys => xs.length = ys.length ∧ ∀ p ∈ xs.zip ys, GoEqual t p.1 p.2
  | .struct fs, .struct xs, .struct ys => GoEqualFields fs xs ys
  | _, x, y => x = y
def GoEqualFields : Fields → List Val → List Val → Prop
  | .cons _ t fs, x :: xs, y :: ys => GoEqual t x y ∧ GoEqualFields fs xs ys
  | _, xs, ys => xs = ys
end

/-- Values of the library types that Go accepts for map keys. -/
def LibKey : Lib → Val → Prop
  | .safeString, .str _ | .bool, .bool _ | .varint16, .int _ | .varint32, .int _ | .int64, .int _ => True
  | .varuint16, .uint _ | .varuint32, .uint _ | .uint64, .uint _ => True
  | .jsonFloat64, .float x => x < 2 ^ 64
  | .uint128, .u128 _ _ _ | .int128, .u128 _ _ _ | .float128, .u128 _ _ _ => True
  | .emptyVariant, v => v = .struct []
  | _, _ => False

mutual
/-- Values of the types that Go accepts for map keys: no slices and maps, at any depth. -/
def KeyValue : Ty → Val → Prop
  | .bool, .bool _ | .uint _ _, .uint _ | .borshEnum, .uint _ | .plainUint, .uint _ | .int _ _, .int _ | .plainInt, .int _ => True
  | .str, .str _ | .ptr _, .ptr _ | .iface, .nil => True
  | .f32, .float x => x < 2 ^ 32
  | .f64, .float x => x < 2 ^ 64
  | .lib l, v => LibKey l v
  | .array n t, .arr xs => xs.length = n ∧ ∀ x ∈ xs, KeyValue t x
  | .struct fs, .struct xs => KeyValues fs xs
  | _, _ => False
def KeyValues : Fields → List Val → Prop
  | .nil, [] => True
  | .cons _ t fs, x :: xs => KeyValue t x ∧ KeyValues fs xs
  | _, _ => False
end

end Verif.Spec
