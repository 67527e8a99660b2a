import Verif.Spec.Copy
/-! Byte order of the library types, and nil pointers in Borsh. -/
namespace Verif.Spec

/-- The byte order `o` in force for a library type, given the current field option and the `Endianness` of the value:
the 64-bit types need a field option, the 128-bit types fall back on `Endianness`, the others have no order. -/
def LibOrder (l : Lib) (cur en : Option Order) (o : Order) : Prop :=
  match l with
  | .jsonFloat64 | .int64 | .uint64 => cur = some o
  | .uint128 | .int128 | .float128 => cur.getD (en.getD .le) = o
  | _ => True

mutual
/-- The value Borsh makes of a value with nil pointers: a nil pointer is replaced by a pointer to the zero value, except
below optional fields, in map keys, in complex enums, and for pointers to library types. -/
def fillNil : Ty → Val → Val
  | .ptr t, .ptr p => if t.asLib.isSome then .ptr p else .ptr (some (fillNil t (p.getD t.zero)))
  | .slice t, .seq xs => .seq (xs.map fun l => l.map fun x => fillNil t x)
  | .array _ t, .arr xs => .arr (xs.map fun x => fillNil t x)
  | .map _ t, .map m => .map (m.map fun l => l.map fun x => (x.1, fillNil t x.2))
  | .struct fs, .struct vs => if fs.isEnum then .struct vs else .struct (fillNils fs vs)
  | _, v => v
def fillNils : Fields → List Val → List Val
  | .cons m t fs, v :: vs =>
    (if m.tag.skip ∨ m.exported = false ∨ m.tag.option ∨ m.tag.coption then v else fillNil t v) :: fillNils fs vs
  | _, vs => vs
end

end Verif.Spec
