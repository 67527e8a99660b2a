import Verif.Model.DecodeReflect
/-!
# Types with a fixed layout

`Spec.fixedSize e nan t`: the number of bytes a value of type `t` occupies, for types built from booleans, integers, floats,
the library's fixed-width types, arrays, pointers and structs without optional, counted or extension fields.  `nan` says
whether Borsh floats are allowed: Borsh refuses NaNs, so not every eight bytes are a Borsh float.
-/
namespace Verif.Spec

def libSize (e : Encoding) (nan : Bool) : Lib → Option Nat
  | .bool => some 1
  | .jsonFloat64 => if e = .borsh ∧ nan = false then none else some 8
  | .int64 | .uint64 => some 8
  | .uint128 | .int128 | .float128 => some 16
  | .emptyVariant => some 0
  | _ => none

mutual
def fixedSize (e : Encoding) (nan : Bool) : Ty → Option Nat
  | .bool => some 1
  | .uint w _ | .int w _ => some w.bytes
  | .borshEnum => some 1
  | .f32 => if e = .borsh ∧ nan = false then none else some 4
  | .f64 => if e = .borsh ∧ nan = false then none else some 8
  | .lib l => libSize e nan l
  | .ptr t => fixedSize e nan t
  | .array n t =>
    match t.kind with
    | .uint w => if n * w.bytes < 2 ^ 31 then some (n * w.bytes) else none
    | _ => (fixedSize e nan t).map (n * ·)
  | .struct fs => if e = .borsh ∧ fs.isEnum then none else fixedFieldsSize e nan fs
  | _ => none
def fixedFieldsSize (e : Encoding) (nan : Bool) : Fields → Option Nat
  | .nil => some 0
  | .cons m t fs =>
    if m.tag.skip then fixedFieldsSize e nan fs
    else if m.tag.option ∨ m.tag.coption ∨ m.tag.binExt ∨ m.tag.sizeOf ≠ [] then none
    else if !m.exported then fixedFieldsSize e nan fs
    else (fixedSize e nan t).bind fun a => (fixedFieldsSize e nan fs).map (a + ·)
end

end Verif.Spec
