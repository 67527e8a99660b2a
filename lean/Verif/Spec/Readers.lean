import Verif.Model.Reader
import Verif.Spec.Calls
/-! What package `io` asks of a reader. -/
namespace Verif.Spec

/-- `left s` are the bytes the reader still has in state `s`.  `Read` with a buffer of `k` bytes hands out the first of them, some if `k` is
positive and there are any, and never more than `k`; `io.EOF` is returned when there are none left, together with the last bytes or on its own,
and there is no other error (documentation of `io.Reader`). -/
def Honest {σ : Type} (r : IoReader σ) (left : σ → Bytes) : Prop :=
  ∀ k s, ∃ bs e s', r k s = (.ok (bs, e), s') ∧ left s = bs ++ left s' ∧ bs.length ≤ k ∧
    (e = none → 0 < k → bs ≠ []) ∧ (∀ x, e = some x → x = .eof ∧ left s' = [])

/-- Buffer sizes of `io.ReadAll`, one after the other. -/
def roomAt (grow : Nat → Nat) (cap : Nat) : Nat → Nat
  | 0 => cap
  | n + 1 => grow (roomAt grow cap n)

/-- The bytes in the buffer of `io.ReadAll` before round `n`, if every `Read` filled it. -/
def filledAt (grow : Nat → Nat) (cap : Nat) : Nat → Nat
  | 0 => 0
  | n + 1 => roomAt grow cap n

end Verif.Spec
