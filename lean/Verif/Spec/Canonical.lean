import Verif.Spec.Copy
import Verif.Spec.Shape
/-!
# Types with exactly one encoding per value

`Spec.canonical e t` is a condition on the type declaration alone: no booleans, option flags, varints and `SafeString`s
(several byte strings are read as the same value), no maps, no extension fields, slices only where the length prefix has
one form.
-/
namespace Verif.Spec

def canonicalLib (e : Encoding) : Lib → Bool
  | .jsonFloat64 | .int64 | .uint64 | .uint128 | .int128 | .float128 | .emptyVariant => true
  -- the Bin length is a varint, which may be padded
  | .hexBytes => e != .bin
  | _ => false

/-- Payload types of enum variants that are written as themselves. -/
def payloadType : Ty → Bool
  | .ptr t => payloadBase t
  | t => payloadBase t

def isPtr : Ty → Bool
  | .ptr _ => true
  | _ => false

mutual
/-- `sized`: the length is in an earlier field. -/
def canonical (e : Encoding) : Ty → Bool → Bool
  | .uint _ _, _ | .int _ _, _ | .borshEnum, _ | .f64, _ | .str, _ | .iface, _ => true
  -- elsewhere signalling NaNs are quieted
  | .f32, _ => e == .borsh
  | .lib l, _ => canonicalLib e l
  | .ptr t, sized => (e != .borsh || !sized) && canonical e t sized
  | .slice t, sized => (sized || e != .bin) && (t.uintKind.isSome || canonical e t false)
  | .array _ t, _ => t.uintKind.isSome || canonical e t false
  | .struct fs, _ => if e = .borsh ∧ fs.isEnum then canonicalVariants e fs else canonicalFields e fs []
  | .bool, _ | .map _ _, _ | .plainInt, _ | .plainUint, _ | .other, _ => false
/-- `names`: the names announced by `sizeof=` tags. -/
def canonicalFields (e : Encoding) : Fields → List Bytes → Bool
  | .nil, _ => true
  | .cons m t fs, names =>
    if m.tag.skip then canonicalFields e fs names
    else
      !m.tag.binExt &&
      (if m.exported then
        (e != .borsh || m.tag.order == .le) && !m.tag.option &&
        -- a C-optional pointer: absent means nil, present means not nil
        (e != .borsh || !m.tag.coption || (isPtr t && t.directLib.isNone)) &&
        (m.tag.sizeOf == [] || (isInteger t.kind && !isSigned t.kind && m.tag.sizeOf != m.name &&
          (e != .borsh || t.directLib.isNone))) &&
        canonical e t ((announced m names).contains m.name)
      else m.tag.sizeOf == []) &&
      canonicalFields e fs (announced m names)
/-- The variants of an enum (the first field is the tag). -/
def canonicalVariants (e : Encoding) : Fields → Bool
  | .nil => true
  | .cons _ _ fs => canonicalPayloads e fs
def canonicalPayloads (e : Encoding) : Fields → Bool
  | .nil => true
  | .cons _ t fs => payloadType t && canonical e t false && canonicalPayloads e fs
end

end Verif.Spec
