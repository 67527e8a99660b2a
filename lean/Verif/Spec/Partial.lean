import Verif.Model.EncodeReflect
/-!
# Struct types cut in two

`before ++ after` for field lists, and the names announced by `sizeof=` tags.
-/
namespace Verif.Spec

/-- The fields of `fs` followed by those of `gs`. -/
def joined : Fields → Fields → Fields
  | .nil, gs => gs
  | .cons m t fs, gs => .cons m t (joined fs gs)

/-- The names mentioned in `sizeof=` tags. -/
def announces : Fields → List Bytes
  | .nil => []
  | .cons m _ fs => m.tag.sizeOf :: announces fs

end Verif.Spec
