import Verif.Model.Decoder
import Verif.Spec.Numbers
/-! Length prefixes as bytes on the wire. -/
namespace Verif.Spec

/-- The bytes `p` announce the length `n`: Bin, a base-128 varint of at most ten bytes (not necessarily the shortest) that
fits 64 bits; Borsh, four bytes, least significant first; CompactU16, the compact-u16 form of `n` and nothing else. -/
def Declares (e : Encoding) (p : Bytes) (n : Nat) : Prop :=
  match e with
  | .bin => Groups p ∧ p.length ≤ 10 ∧ leb p = n ∧ n < 2 ^ 64
  | .borsh => p.length = 4 ∧ leValue p = n
  | .compactU16 => n ≤ 65535 ∧ p = compact n
  | .other => False

end Verif.Spec
