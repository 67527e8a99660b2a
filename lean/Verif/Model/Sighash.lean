import Verif.Model.Variant
import Verif.Model.Heck
/-! # sighash.go: the functions that change the case of the name -/
namespace Verif

/-- `SighashInstruction` (sighash.go:30-34). -/
def sighashInstruction (H : Bytes → Bytes) (U : Uni) (name : Bytes) : Res Bytes :=
  match toSnakeForSighash U name with
  | .ok n => .ok (sighash H globalNs n)
  | .err x => .err x
  | .panic => .panic

/-- `SighashAccount` (sighash.go:36-40). -/
def sighashAccount (H : Bytes → Bytes) (U : Uni) (name : Bytes) : Res Bytes :=
  match toPascalCase U name with
  | .ok n => .ok (sighash H accountNs n)
  | .err x => .err x
  | .panic => .panic

end Verif
