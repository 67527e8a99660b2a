import Verif.Spec.Wire
/-!
# Spec: the variants of a Borsh enum
-/
namespace Verif.Spec
open Verif

/-- The types of the fields of a struct, in order. -/
def types : Fields → List Ty
  | .nil => []
  | .cons _ t fs => t :: types fs

end Verif.Spec
