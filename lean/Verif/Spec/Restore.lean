import Verif.Spec.Canonical
/-!
# Types whose decoded values can be encoded again

`Spec.restorable e t` is a condition on the type declaration alone: map keys are integers, strings or booleans, slice
elements occupy at least one byte, counters are unsigned, no extension fields, no optional library types.
-/
namespace Verif.Spec

mutual
/-- Every value occupies at least one byte.  `sized`: the length is in an earlier field. -/
def occupies (e : Encoding) : Ty → Bool → Bool
  | .bool, _ | .uint _ _, _ | .int _ _, _ | .borshEnum, _ | .f32, _ | .f64, _ | .str, _ | .map _ _, _ => true
  | .lib l, _ => l != .emptyVariant
  | .ptr t, sized => occupies e t sized
  | .slice _, sized => !sized
  | .array n t, _ => n != 0 && (t.uintKind.isSome || occupies e t false)
  | .struct fs, _ => (e == .borsh && fs.isEnum) || occupiesFields e fs []
  | .plainInt, _ | .plainUint, _ | .iface, _ | .other, _ => false
/-- Some field that is written occupies at least one byte. -/
def occupiesFields (e : Encoding) : Fields → List Bytes → Bool
  | .nil, _ => false
  | .cons m t fs, names =>
    if m.tag.skip then occupiesFields e fs names
    else
      (m.exported && (m.tag.option || (e == .borsh && m.tag.coption) ||
        occupies e t ((announced m names).contains m.name))) ||
      occupiesFields e fs (announced m names)
end

/-- Keys that compare like numbers or strings. -/
def plainKey : Ty → Bool
  | .bool | .uint _ _ | .int _ _ | .borshEnum | .str => true
  | _ => false

/-- A repaired `SafeString` may be longer than what was read, too long for CompactU16. -/
def restorableLib (e : Encoding) (l : Lib) : Bool := l != .safeString || e != .compactU16

mutual
/-- `sized`: the length is in an earlier field. -/
def restorable (e : Encoding) : Ty → Bool → Bool
  | .bool, _ | .uint _ _, _ | .int _ _, _ | .borshEnum, _ | .f32, _ | .f64, _ | .str, _ | .iface, _ => true
  | .lib l, _ => restorableLib e l
  | .ptr t, sized => (e != .borsh || !sized) && restorable e t sized
  | .slice t, _ => t.uintKind.isSome || (occupies e t false && restorable e t false)
  | .array _ t, _ => t.uintKind.isSome || restorable e t false
  | .map k t, _ => plainKey k && (e != .borsh || orderedKey k) && restorable e t false
  | .struct fs, _ => if e = .borsh ∧ fs.isEnum then restorableVariants e fs else restorableFields e fs []
  | .plainInt, _ | .plainUint, _ | .other, _ => false
/-- `names`: the names announced by `sizeof=` tags. -/
def restorableFields (e : Encoding) : Fields → List Bytes → Bool
  | .nil, _ => true
  | .cons m t fs, names =>
    if m.tag.skip then restorableFields e fs names
    else
      !m.tag.binExt &&
      (if m.exported then
        (e != .borsh || m.tag.order == .le) &&
        (!m.tag.option || (t.asLib.isNone && (e != .borsh || (t.directLib.isNone && !m.tag.coption)))) &&
        (e != .borsh || !m.tag.coption || t.directLib.isNone) &&
        (m.tag.sizeOf == [] || (isInteger t.kind && !isSigned t.kind && m.tag.sizeOf != m.name &&
          (e != .borsh || t.directLib.isNone))) &&
        restorable e t ((announced m names).contains m.name)
      else m.tag.sizeOf == []) &&
      restorableFields e fs (announced m names)
/-- The variants of an enum (the first field is the tag). -/
def restorableVariants (e : Encoding) : Fields → Bool
  | .nil => true
  | .cons _ _ fs => restorablePayloads e fs
def restorablePayloads (e : Encoding) : Fields → Bool
  | .nil => true
  | .cons _ t fs => payloadType t && restorable e t false && restorablePayloads e fs
end

end Verif.Spec
