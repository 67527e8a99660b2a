import Verif.Model.DynamicMap
import Verif.Spec.Dynamic
import Verif.Spec.Wire
import Verif.Spec.Parts
/-!
# What maps and slices of interfaces are written as

The words in which C102 is stated.
-/
namespace Verif.Spec
open Verif

/-- The order in which the entries are written: by key in Borsh, as listed otherwise. -/
def dynOrder (e : Encoding) (k : Ty) (m : List (Val × Dyn)) : List (Val × Dyn) :=
  if e = .borsh then m.mergeSort fun a b => rankLe (keyRank k.kind a.1) (keyRank k.kind b.1) else m

/-- An element of a `[]interface{}`: the bytes of a library type it holds, else nothing. -/
def elemPart (e : Encoding) (d : Dyn) : Res Unit × Bytes :=
  match d with
  | .held (.lib l) v => marshal e (.lib l) v
  | .held (.ptr (.lib l)) (.ptr (some x)) => marshal e (.lib l) x
  | _ => (.ok (), [])

/-- The element is no nil pointer to a library type. -/
def NoNilElem (d : Dyn) : Prop := ∀ l v, d = .held (.ptr (.lib l)) v → ∃ x, v = .ptr (some x)

/-- The map with its keys only. -/
def keysOnly (m : List (Val × Dyn)) : List (Val × Val) := m.map fun x => (x.1, .nil)

end Verif.Spec
