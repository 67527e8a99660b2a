import Verif.Basic
/-! Specifications of number formats, written directly from the format descriptions (no model helper is used). -/
namespace Verif.Spec

/-- The compact-u16 format: seven bits per byte, low group first, high bit = "more", no empty top group. -/
def compact (n : Nat) : Bytes :=
  if n < 128 then [UInt8.ofNat n]
  else if n < 16384 then [UInt8.ofNat (n % 128 + 128), UInt8.ofNat (n / 128)]
  else [UInt8.ofNat (n % 128 + 128), UInt8.ofNat (n / 128 % 128 + 128), UInt8.ofNat (n / 16384)]

/-- Base-128 value of a group sequence, least significant group first, ignoring the continuation bit. -/
def leb : Bytes → Nat
  | [] => 0
  | b :: bs => b.toNat % 128 + 128 * leb bs

/-- A well-formed varint: every byte but the last has the continuation bit, the last has not. -/
def Groups (bs : Bytes) : Prop :=
  ∃ init last, bs = init ++ [last] ∧ (∀ b ∈ init, 128 ≤ b.toNat) ∧ last.toNat < 128

/-- Value of a byte string read with the least significant byte first. -/
def leValue : Bytes → Nat
  | [] => 0
  | b :: bs => b.toNat + 256 * leValue bs

end Verif.Spec
