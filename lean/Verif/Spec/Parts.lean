import Verif.Model.Interface
import Verif.Spec.Wire
import Verif.Spec.InFields
/-!
# A value written part by part

An outcome is a result together with the bytes written until then.
-/
namespace Verif.Spec

/-- One part after the other, up to and including the first that fails. -/
def inSeries : List (Res Unit × Bytes) → Res Unit × Bytes
  | [] => (.ok (), [])
  | (.ok (), b) :: parts => ((inSeries parts).1, b ++ (inSeries parts).2)
  | (.err x, b) :: _ => (.err x, b)
  | (.panic, b) :: _ => (.panic, b)

/-- A struct field: its flags, then what marshaling its value alone gives. -/
def fieldPart (e : Encoding) (m : FieldMeta) (t : Ty) (v : Val) : Res Unit × Bytes :=
  if m.tag.skip = true ∨ m.exported = false then (.ok (), [])
  else if t.isZero v = true ∧ (m.tag.option = true ∨ (e = .borsh ∧ m.tag.coption = true)) then (.ok (), fieldWire e m t v [])
  else ((marshal e t v).1, fieldWire e m t v (marshal e t v).2)

/-- The parts of a struct. -/
def fieldParts (e : Encoding) : Fields → List Val → List (Res Unit × Bytes)
  | .cons m t fs, v :: vs => fieldPart e m t v :: fieldParts e fs vs
  | _, _ => []

/-- The parts of a map: length, then keys and values in turn. -/
def entryParts (e : Encoding) (k t : Ty) (es : List (Val × Val)) : List (Res Unit × Bytes) :=
  es.flatMap fun x => [marshal e k x.1, marshal e t x.2]

end Verif.Spec
