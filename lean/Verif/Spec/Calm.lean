import Verif.Spec.Wire
/-!
# Values on which `Encode` does not panic

`Calm e t size v`: `v` is a value of type `t`, no nil pointer to a library type is written in Bin or CompactU16, Borsh maps of
several entries have keys that can be ordered, map keys contain no NaN, `sizeof` tags sit on integers and announce no more elements than there are.
Numbers out of range, NaN elsewhere, unsupported kinds and failing writers are allowed: they are errors, not panics.
-/
namespace Verif.Spec

/-- Lengths that a Bin varint can carry. -/
def lenFits (e : Encoding) (n : Nat) : Prop := e = .bin → n < 2 ^ 56

def LibCalm (e : Encoding) : Lib → Val → Prop
  | .safeString, .str s => lenFits e s.length
  | .bool, .bool _ => True
  | .hexBytes, .bytes b => lenFits e (b.getD []).length
  | .varint16, .int z => -2 ^ 15 ≤ z ∧ z < 2 ^ 15
  | .varint32, .int z => -2 ^ 31 ≤ z ∧ z < 2 ^ 31
  | .varuint16, .uint n => n < 2 ^ 16
  | .varuint32, .uint n => n < 2 ^ 32
  | .jsonFloat64, .float _ => True
  | .int64, .int _ => True
  | .uint64, .uint _ => True
  | .uint128, .u128 _ _ _ | .int128, .u128 _ _ _ | .float128, .u128 _ _ _ => True
  | .emptyVariant, .struct _ => True
  | _, _ => False

/-- What a `sizeof` field announces: signed numbers as they are, unsigned ones of 2^63 and more as zero. -/
def counter (t : Ty) (v : Val) : Option Int :=
  match t.kind, v with
  | .int _, .int z | .plainInt, .int z => some z
  | .uint _, .uint n | .plainUint, .uint n => if n < 2 ^ 63 then some n else if n < 2 ^ 64 then some 0 else none
  | _, _ => none

def isUint : Val → Prop
  | .uint _ => True
  | _ => False

mutual
/-- No float in the key is a NaN. -/
def nanFree : Ty → Val → Prop
  | .f32, .float x => isNaN32 x = false
  | .f64, .float x | .lib .jsonFloat64, .float x => isNaN64 x = false
  | .array _ t, .arr xs => ∀ x ∈ xs, nanFree t x
  | .struct fs, .struct xs => nanFrees fs xs
  | _, _ => True
def nanFrees : Fields → List Val → Prop
  | .cons _ t fs, x :: xs => nanFree t x ∧ nanFrees fs xs
  | _, _ => True
end

mutual
def Calm (e : Encoding) : Ty → Option Int → Val → Prop
  | .bool, _, .bool _ => True
  | .uint _ _, _, .uint _ => True
  | .int _ _, _, .int _ => True
  | .borshEnum, _, .uint _ => True
  | .f32, _, .float _ => True
  | .f64, _, .float _ => True
  | .str, _, .str s => lenFits e s.length
  | .lib l, _, v => LibCalm e l v
  | .ptr t, size, .ptr p =>
    match p with
    | some x => Calm e t (if e = .borsh then none else size) x
    | none =>
      match t.asLib with
      | some l => e = .borsh ∨ l = .emptyVariant
      | none => e = .borsh → Calm e t none t.zero
  | .slice t, size, .seq xs =>
    (match size with
      | none => lenFits e (xs.getD []).length
      | some s => s ≤ (xs.getD []).length ∧ (t.uintKind.isSome → 0 ≤ s)) ∧
    ∀ x ∈ xs.getD [], if t.uintKind.isSome then isUint x else Calm e t none x
  | .array n t, _, .arr xs =>
    xs.length = n ∧ ∀ x ∈ xs, if t.uintKind.isSome then isUint x else Calm e t none x
  | .map k t, _, .map m =>
    lenFits e (m.getD []).length ∧ (e = .borsh → 2 ≤ (m.getD []).length → orderedKey k = true) ∧
    ∀ x ∈ m.getD [], nanFree k x.1 ∧ Calm e k none x.1 ∧ Calm e t none x.2
  | .struct fs, _, .struct vs =>
    if e = .borsh ∧ fs.isEnum then
      match vs with
      | .uint n :: _ => n + 1 < fs.length → CalmNth e fs (n + 1) vs
      | _ => False
    else CalmFields e fs [] vs
  | .iface, _, .nil => True
  | .plainInt, _, _ => True
  | .plainUint, _, _ => True
  | .other, _, _ => True
  | _, _, _ => False
def CalmFields (e : Encoding) : Fields → List (Bytes × Int) → List Val → Prop
  | .nil, _, _ => True
  | .cons m t fs, sm, v :: vs =>
    if m.tag.skip then CalmFields e fs sm vs
    else if m.tag.sizeOf = [] then
      (m.exported = true → ¬ absent e m t v → Calm e t (lookupSize m.name sm) v) ∧ CalmFields e fs sm vs
    else
      ∃ n, counter t v = some n ∧
        (m.exported = true → ¬ absent e m t v → Calm e t (lookupSize m.name ((m.tag.sizeOf, n) :: sm)) v) ∧
        CalmFields e fs ((m.tag.sizeOf, n) :: sm) vs
  | .cons _ _ _, _, [] => False
/-- The selected variant of an enum; variants that are not scalars or structs write nothing. -/
def CalmNth (e : Encoding) : Fields → Nat → List Val → Prop
  | .cons _ t _, 0, v :: _ => CalmPayload e t v
  | .cons _ _ fs, i + 1, _ :: vs => CalmNth e fs i vs
  | _, _, _ => False
def CalmPayload (e : Encoding) : Ty → Val → Prop
  | .ptr t, .ptr p =>
    match p with
    | none => True
    | some x =>
      match t.kind with
      | .slice | .array | .map | .ptr | .iface | .plainInt | .plainUint | .other => True
      | _ => Calm e t none x
  | .struct fs, .struct vs =>
    if e = .borsh ∧ fs.isEnum then
      match vs with
      | .uint n :: _ => n + 1 < fs.length → CalmNth e fs (n + 1) vs
      | _ => False
    else CalmFields e fs [] vs
  | .lib l, v => if l = .hexBytes then True else LibCalm e l v
  | .bool, .bool _ => True
  | .uint _ _, .uint _ => True
  | .int _ _, .int _ => True
  | .borshEnum, .uint _ => True
  | .f32, .float _ => True
  | .f64, .float _ => True
  | .str, .str s => lenFits e s.length
  | .slice _, _ => True
  | .array _ _, _ => True
  | .map _ _, _ => True
  | .iface, _ => True
  | .plainInt, _ => True
  | .plainUint, _ => True
  | .other, _ => True
  | _, _ => False
end

end Verif.Spec
