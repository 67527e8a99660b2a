import Verif.Model.DecodeReflect
/-!
Which fields an error should name: those on the way from the value given to `Encode` or `Decode` to the place of the failure, one name for
each struct on that way.
-/
namespace Verif.Spec

mutual
/-- `Named e dec t p`: an error of encoding (`dec = false`) or decoding (`dec = true`) a `t` may name the fields `p`, outermost first.
A struct always contributes the name of one of its coded fields, except that a Borsh enum contributes none. Borsh
decoding does not name fields of library types. -/
def Named (e : Encoding) (dec : Bool) : Ty → List Bytes → Prop
  | .struct fs, p =>
    if e = .borsh ∧ fs.isEnum then p = [] ∨ NamedVariant e dec fs p else NamedField e dec fs p
  | .ptr t, p => Named e dec t p
  | .slice t, p => p = [] ∨ Named e dec t p
  | .array _ t, p => Named e dec t p
  | .map k t, p => p = [] ∨ Named e dec k p ∨ Named e dec t p
  | _, p => p = []
/-- The path starts with one of the fields; then comes a path of the field, or nothing if a presence flag failed. -/
def NamedField (e : Encoding) (dec : Bool) : Fields → List Bytes → Prop
  | .nil, _ => False
  | .cons m t fs, p => NamedField e dec fs p ∨ (m.tag.skip = false ∧ m.exported = true ∧
      if dec = true ∧ e = .borsh ∧ t.directLib.isSome = true then p = []
      else ∃ q, p = m.name :: q ∧ (Named e dec t q ∨ (q = [] ∧ (m.tag.option = true ∨ m.tag.coption = true))))
/-- The path is one of a variant. Encoding takes 128-bit payloads apart and names `Lo` or `Hi`. -/
def NamedVariant (e : Encoding) (dec : Bool) : Fields → List Bytes → Prop
  | .nil, _ => False
  | .cons _ t fs, p => NamedVariant e dec fs p ∨ Named e dec t p ∨ (dec = false ∧ t.baseLib = true ∧ (p = [[76, 111]] ∨ p = [[72, 105]]))
end

/-- The library types whose `UnmarshalWithDecoder` turns the cause of an error into text. -/
def opaqueLib : Lib → Bool
  | .hexBytes | .varint16 | .varuint16 | .varuint32 | .float128 => true
  | _ => false

mutual
/-- No coded part of the type is of such a library type or has a presence flag. -/
def clear : Ty → Bool
  | .lib l => !opaqueLib l
  | .ptr t | .slice t | .array _ t => clear t
  | .map k t => clear k && clear t
  | .struct fs => clears fs && (!fs.isEnum || clearVariants fs)
  | _ => true
/-- The same for the fields that are coded. -/
def clears : Fields → Bool
  | .nil => true
  | .cons m t fs => (m.tag.skip || !m.exported || (!m.tag.option && !m.tag.coption && clear t)) && clears fs
/-- The same for the fields as variants of an enum, whose tags do not count. -/
def clearVariants : Fields → Bool
  | .nil => true
  | .cons _ t fs => clear t && clearVariants fs
end

end Verif.Spec
