import Verif.Model.DecodeReflect
/-!
# Spec: types whose layout does not depend on the encoding

The three encodings differ in length prefixes (strings, slices, maps) and in the flag of an optional field, which has four bytes
in Bin and one in the others.  Borsh also refuses NaN, has enums and C-options, ignores byte-order tags, writes a zero value for
a nil pointer, and decodes fields of the library's types and announced slices in its own way.
-/
namespace Verif.Spec
open Verif

/-- One of the two encodings is `x`. -/
def oneIs (x e e' : Encoding) : Bool := e == x || e' == x

/-- The library types that are written alike: not those with a length prefix; next to Borsh not the float, which may be NaN, and
not the empty variant, which is left alone by one decoder and reset by the other (there is only one value of that type in Go, but not
in the model). -/
def alikeLib (e e' : Encoding) : Lib → Bool
  | .safeString | .hexBytes => false
  | .jsonFloat64 | .emptyVariant => !oneIs .borsh e e'
  | _ => true

/-- The names announced by `sizeof=` tags on exported fields that are not extensions. -/
def counts (m : FieldMeta) (names : List Bytes) : List Bytes :=
  if m.tag.sizeOf != [] && m.exported && !m.tag.binExt then m.tag.sizeOf :: names else names

mutual
/-- Values of the type have the same layout in both encodings.  `sized`: the length is carried by an earlier field. -/
def alike (e e' : Encoding) : Ty → Bool → Bool
  | .str, _ | .map _ _, _ => false
  | .f32, _ | .f64, _ => !oneIs .borsh e e'
  | .lib l, _ => alikeLib e e' l
  | .ptr t, sized => !oneIs .borsh e e' && alike e e' t sized
  | .slice t, sized => sized && !oneIs .borsh e e' && (t.uintKind.isSome || alike e e' t false)
  | .array _ t, _ => t.uintKind.isSome || alike e e' t false
  | .struct fs, _ => !(oneIs .borsh e e' && fs.isEnum) && alikeFields e e' fs []
  | _, _ => true
/-- Field by field. -/
def alikeFields (e e' : Encoding) : Fields → List Bytes → Bool
  | .nil, _ => true
  | .cons m t fs, names =>
    if m.tag.skip then alikeFields e e' fs names
    else
      (!m.exported || (alike e e' t (names.contains m.name) &&
        !(m.tag.option && oneIs .bin e e') && !(oneIs .borsh e e' && (m.tag.coption || m.tag.order == .be || (m.tag.option && t.asLib.isSome))))) &&
      !(oneIs .borsh e e' && m.tag.sizeOf != []) &&
      alikeFields e e' fs (counts m names)
end

end Verif.Spec
