import Verif.Model.Variant
import Verif.Model.DecodeInto
/-!
# The receiver of `UnmarshalBinaryVariant`

`unmarshalVariant` of `Model/Variant` returns the receiver after a successful call.  Here the receiver after a failed call is
given as well.  That the two agree is proved (`Props/VariantState`).
-/
namespace Verif

/-- `UnmarshalBinaryVariant` (variant.go:281-353) on a receiver holding `old`.  `TypeID` is assigned as soon as it has been
read (311), before the type is looked up; `Impl` is assigned before the value is decoded for pointer types (319), after it for
other types (350). -/
def unmarshalVariantInto (d : VariantDef) (old : BaseVariant) : Fill BaseVariant :=
  .read (readVariantID d.encoding) old fun id =>
  match d.typeOf id with
  | some (some (.ptr t)) => (decodeInto t t.zero).wrap fun x => { id, impl := some (.ptr t, .ptr (some x)) }
  | some (some t) => (decodeInto t t.zero).part (fun _ => { old with id }) fun x => .done { id, impl := some (t, x) }
  | _ => .stop (.err .unknownVariant) { old with id }

end Verif
