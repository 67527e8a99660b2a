import Verif.Model.DecodeReflect
/-!
# Types that any bytes can be decoded into

`Spec.decodable` is a condition on the type declaration alone (types and tags): no optional field of a library type,
extension fields last, `sizeof` tags on integers, and signed `sizeof` fields not announcing slices of `uint16`, `uint32`
or `uint64` elements.  `Spec.Shaped N t v`: `v` is a value of type `t` none of whose strings, byte strings and slices is
longer than `N`.
-/
namespace Verif.Spec

def isInteger : Kind → Bool
  | .int _ | .uint _ | .plainInt | .plainUint => true
  | _ => false

def isSigned : Kind → Bool
  | .int _ | .plainInt => true
  | _ => false

mutual
/-- `neg` says that the length may be announced by a signed field. -/
def decodable (e : Encoding) : Ty → Bool → Bool
  | .ptr t, neg => decodable e t neg
  | .slice t, neg => !(neg && (t.uintKind == some .w16 || t.uintKind == some .w32 || t.uintKind == some .w64)) && decodable e t false
  | .array _ t, _ => decodable e t false
  | .map k t, _ => decodable e k false && decodable e t false
  | .struct fs, _ => if e = .borsh ∧ fs.isEnum then decodableAll e fs else decodableFields e fs [] false
  | _, _ => true
/-- `negs`: the names announced by signed fields; `seen`: an extension field came before. -/
def decodableFields (e : Encoding) : Fields → List Bytes → Bool → Bool
  | .nil, _, _ => true
  | .cons m t fs, negs, seen =>
    if m.tag.skip then decodableFields e fs negs seen
    else
      (!seen || m.tag.binExt) &&
      (!m.exported || (e == .borsh && t.directLib.isSome) ||
        ((!m.tag.option || t.asLib.isNone) &&
         (!(e == .borsh && m.tag.coption) || (t.asLib.isNone && (!m.tag.option || !t.baseLib))) &&
         (m.tag.sizeOf == [] || isInteger t.kind) &&
         decodable e t (negs.contains m.name))) &&
      decodableFields e fs (if m.tag.sizeOf ≠ [] ∧ isSigned t.kind then m.tag.sizeOf :: negs else negs)
        (seen || m.tag.binExt)
def decodableAll (e : Encoding) : Fields → Bool
  | .nil => true
  | .cons _ t fs => decodable e t false && decodableAll e fs
end

mutual
/-- No struct in the type has a `binary_extension` field (other than skipped ones). -/
def noExtension : Ty → Bool
  | .ptr t | .slice t | .array _ t => noExtension t
  | .map k t => noExtension k && noExtension t
  | .struct fs => noExtensions fs
  | _ => true
def noExtensions : Fields → Bool
  | .nil => true
  | .cons m t fs => (m.tag.skip || !m.tag.binExt) && noExtension t && noExtensions fs
end

def LibShaped (N : Nat) : Lib → Val → Prop
  | .safeString, .str _ => True
  | .bool, .bool _ => True
  | .hexBytes, .bytes b => (b.getD []).length ≤ N
  | .varint16, .int _ | .varint32, .int _ | .int64, .int _ => True
  | .varuint16, .uint _ | .varuint32, .uint _ | .uint64, .uint _ => True
  | .jsonFloat64, .float _ => True
  | .uint128, .u128 _ _ _ | .int128, .u128 _ _ _ | .float128, .u128 _ _ _ => True
  | .emptyVariant, .struct [] => True
  | _, _ => False

mutual
def Shaped (N : Nat) : Ty → Val → Prop
  | .bool, .bool _ => True
  | .uint _ _, .uint _ | .borshEnum, .uint _ | .plainUint, .uint _ => True
  | .int _ _, .int _ | .plainInt, .int _ => True
  | .f32, .float _ | .f64, .float _ => True
  | .str, .str s => s.length ≤ N
  | .lib l, v => LibShaped N l v
  | .ptr t, .ptr p =>
    match p with
    | none => True
    | some x => Shaped N t x
  | .slice t, .seq xs => (xs.getD []).length ≤ N ∧ ∀ x ∈ xs.getD [], Shaped N t x
  | .array n t, .arr xs => xs.length = n ∧ ∀ x ∈ xs, Shaped N t x
  | .map k t, .map m => ∀ x ∈ m.getD [], Shaped N k x.1 ∧ Shaped N t x.2
  | .struct fs, .struct vs => ShapedFields N fs vs
  | .iface, .nil | .other, .nil => True
  | _, _ => False
def ShapedFields (N : Nat) : Fields → List Val → Prop
  | .nil, [] => True
  | .cons _ t fs, v :: vs => Shaped N t v ∧ ShapedFields N fs vs
  | _, _ => False
end

end Verif.Spec
