import Verif.Basic
/-!
# UTF-8 (RFC 3629), from code points to bytes
-/
namespace Verif.Spec
open Verif

/-- Unicode scalar values: code points without the surrogates. -/
def Scalar (r : Nat) : Prop := r < 0x110000 ∧ ¬ (0xD800 ≤ r ∧ r < 0xE000)

/-- The UTF-8 encoding of a scalar value. -/
def utf8 (r : Nat) : Bytes :=
  if r < 0x80 then [UInt8.ofNat r]
  else if r < 0x800 then [UInt8.ofNat (0xC0 + r / 0x40), UInt8.ofNat (0x80 + r % 0x40)]
  else if r < 0x10000 then
    [UInt8.ofNat (0xE0 + r / 0x1000), UInt8.ofNat (0x80 + r / 0x40 % 0x40), UInt8.ofNat (0x80 + r % 0x40)]
  else [UInt8.ofNat (0xF0 + r / 0x40000), UInt8.ofNat (0x80 + r / 0x1000 % 0x40), UInt8.ofNat (0x80 + r / 0x40 % 0x40),
    UInt8.ofNat (0x80 + r % 0x40)]

/-- Valid UTF-8: the encodings of some scalar values, one after the other. -/
def Utf8 (s : Bytes) : Prop := ∃ rs : List Nat, (∀ r ∈ rs, Scalar r) ∧ s = rs.flatMap utf8

/-- `t` is `s` with every byte that is not part of an encoded scalar value replaced by U+FFFD. -/
inductive Repaired : Bytes → Bytes → Prop
  | nil : Repaired [] []
  | keep (r : Nat) (s t : Bytes) : Scalar r → Repaired s t → Repaired (utf8 r ++ s) (utf8 r ++ t)
  | replace (b : UInt8) (s t : Bytes) : (∀ r, Scalar r → ¬ utf8 r <+: b :: s) → Repaired s t →
      Repaired (b :: s) (utf8 0xFFFD ++ t)

end Verif.Spec
