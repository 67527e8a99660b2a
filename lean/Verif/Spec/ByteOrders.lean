import Verif.Model.ByteOrder
import Verif.Spec.Calls
/-! What is expected of a byte order. -/
namespace Verif.Spec

/-- For numbers of `k` bytes the order's two methods are inverse to each other: `PutUintN` fills the `k` bytes, `UintN` finds the number
in the first `k` bytes of what it gets. -/
def Inverse (o : ByteOrder) (k : Nat) : Prop :=
  ∀ v < 256 ^ k, ∃ b : Bytes, b.length = k ∧ o.put k v = .ok b ∧ ∀ rest, o.get k (b ++ rest) = .ok v

/-- `binary.NativeEndian` on a little-endian (or big-endian) machine: the methods are those of `o`, the type is another one. -/
def native (o : Order) : ByteOrder := .other
  { get := fun k b => match getUint o k b with | .ok v => some v | _ => none
    put := fun k v => some (putUint o k v) }

end Verif.Spec
