import Verif.Spec.JsonString
/-! Integer texts that `big.Int.SetString(s, 0)` accepts: Go integer literals with an optional sign. -/
namespace Verif.Spec

/-- A digit or letter of value `v`, in the given base. -/
def DigitIn (base : Nat) (b : UInt8) (v : Nat) : Prop :=
  v < base ∧ ((48 ≤ b.toNat ∧ b.toNat ≤ 57 ∧ v + 48 = b.toNat) ∨ (97 ≤ b.toNat ∧ b.toNat ≤ 122 ∧ v + 87 = b.toNat) ∨
    (65 ≤ b.toNat ∧ b.toNat ≤ 90 ∧ v + 55 = b.toNat))

/-- Further digits behind digits of value `n`, with at most one underscore before each digit. -/
inductive MoreDigits (base : Nat) : Nat → Bytes → Nat → Prop
  | done (n : Nat) : MoreDigits base n [] n
  | digit {n m v : Nat} {b : UInt8} {s : Bytes} : DigitIn base b v → MoreDigits base (n * base + v) s m →
      MoreDigits base n (b :: s) m
  | underscore {n m v : Nat} {b : UInt8} {s : Bytes} : DigitIn base b v → MoreDigits base (n * base + v) s m →
      MoreDigits base n (95 :: b :: s) m

/-- Digits in a base, with single underscores between them. -/
def Numeral (base : Nat) (s : Bytes) (n : Nat) : Prop := ∃ b v t, s = b :: t ∧ DigitIn base b v ∧ MoreDigits base v t n

/-- `0b`, `0o`, `0x` in either case, and the base each announces. -/
def basePrefixes : List (UInt8 × Nat) := [(98, 2), (66, 2), (111, 8), (79, 8), (120, 16), (88, 16)]

inductive GoNatural : Bytes → Nat → Prop
  | zero : GoNatural [48] 0
  | decimal {s : Bytes} {n : Nat} : s.head? ≠ some 48 → Numeral 10 s n → GoNatural s n
  | octal {s : Bytes} {n : Nat} : Numeral 8 s n → GoNatural (48 :: s) n
  | octal_ {s : Bytes} {n : Nat} : Numeral 8 s n → GoNatural (48 :: 95 :: s) n
  | based {s : Bytes} {n base : Nat} {c : UInt8} : (c, base) ∈ basePrefixes → Numeral base s n → GoNatural (48 :: c :: s) n
  | based_ {s : Bytes} {n base : Nat} {c : UInt8} : (c, base) ∈ basePrefixes → Numeral base s n →
      GoNatural (48 :: c :: 95 :: s) n

/-- With an optional sign. -/
def GoInteger (s : Bytes) (z : Int) : Prop :=
  ∃ d n, GoNatural d n ∧ ((s = d ∧ z = n) ∨ (s = 43 :: d ∧ z = n) ∨ (s = 45 :: d ∧ z = -n))

/-- The string starts with `0x` or `0X`. -/
def HexPrefixed (s : Bytes) : Prop := ∃ t, s = 48 :: 120 :: t ∨ s = 48 :: 88 :: t

end Verif.Spec
