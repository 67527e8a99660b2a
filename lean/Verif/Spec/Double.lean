import Verif.Spec.GoInteger
import Verif.Spec.Json
/-!
The double nearest to a rational number, and the texts of floating-point numbers, independently of the model.

A non-negative finite double with bit pattern `b` is `scaled b / 2^1074`: a multiple of the smallest one.  Larger patterns are larger
numbers.
-/
namespace Verif.Spec

/-- The number with bit pattern `b` (sign bit not set, finite), as a multiple of 2^-1074. -/
def scaled (b : Nat) : Nat := if b / 2 ^ 52 = 0 then b else (2 ^ 52 + b % 2 ^ 52) * 2 ^ (b / 2 ^ 52 - 1)

/-- The first bit pattern that is not a finite number: infinity. -/
def infBits : Nat := 0x7FF0000000000000

/-- Absolute difference. -/
def dist (a b : Nat) : Nat := (a - b) + (b - a)

/-- How far `p / q` is from the double `b`, times `2^1074 * q`. -/
def distTo (p q b : Nat) : Nat := dist (p * 2 ^ 1074) (scaled b * q)

/-- `b` is the double `p / q` rounds to: no finite double is nearer, and if another one is as near the last bit of `b` is 0.  From
`2^1024 - 2^970` on, half way between the largest double and 2^1024, there is none. -/
structure Nearest (p q b : Nat) : Prop where
  small : p < (2 ^ 1024 - 2 ^ 970) * q
  finite : b < infBits
  closest : ∀ c, c < infBits → distTo p q b ≤ distTo p q c
  even : ∀ c, c < infBits → c ≠ b → distTo p q c = distTo p q b → b % 2 = 0

/-- The number of digits in a numeral. -/
def digitCount (s : Bytes) : Nat := (s.filter (· != 95)).length

/-- Digits with at most one point among them: the number without the point, and how many digits are behind the point. -/
inductive Mantissa (base : Nat) : Bytes → Nat → Nat → Prop
  | whole {s : Bytes} {n : Nat} : Numeral base s n → Mantissa base s n 0
  | dot {s : Bytes} {n : Nat} : Numeral base s n → Mantissa base (s ++ [46]) n 0
  | fraction {s t : Bytes} {n k : Nat} : Numeral base s n → Numeral base t k →
      Mantissa base (s ++ 46 :: t) (n * base ^ digitCount t + k) (digitCount t)
  | point {t : Bytes} {k : Nat} : Numeral base t k → Mantissa base (46 :: t) k (digitCount t)

/-- A letter, an optional sign, decimal digits. -/
inductive Exponent (letters : List UInt8) : Bytes → Int → Prop
  | plain {c : UInt8} {s : Bytes} {n : Nat} : c ∈ letters → Numeral 10 s n → Exponent letters (c :: s) n
  | plus {c : UInt8} {s : Bytes} {n : Nat} : c ∈ letters → Numeral 10 s n → Exponent letters (c :: 43 :: s) n
  | minus {c : UInt8} {s : Bytes} {n : Nat} : c ∈ letters → Numeral 10 s n → Exponent letters (c :: 45 :: s) (-n)

/-- Go's floating-point literals and decimal integers, and the number `m * b^z` they stand for.  Hexadecimal ones have `0x` in
front, digits in base 16 and an exponent `p` of 2. -/
inductive FloatText : Bytes → Nat → Nat → Int → Prop
  | decimal {s : Bytes} {m f : Nat} : Mantissa 10 s m f → FloatText s m 10 (-f)
  | decimalExp {s t : Bytes} {m f : Nat} {e : Int} : Mantissa 10 s m f → Exponent [101, 69] t e → FloatText (s ++ t) m 10 (e - f)
  | hex {s t : Bytes} {m f : Nat} {e : Int} {c : UInt8} : c = 120 ∨ c = 88 → Mantissa 16 s m f → Exponent [112, 80] t e →
      FloatText (48 :: c :: (s ++ t)) m 2 (e - 4 * f)
  | hex_ {s t : Bytes} {m f : Nat} {e : Int} {c : UInt8} : c = 120 ∨ c = 88 → Mantissa 16 s m f → s.head? ≠ some 46 →
      Exponent [112, 80] t e → FloatText (48 :: c :: 95 :: (s ++ t)) m 2 (e - 4 * f)

/-- The double that `m * b^z` rounds to. -/
def NearestPow (m b : Nat) (z : Int) (x : Nat) : Prop := Nearest (m * b ^ z.toNat) (b ^ (-z).toNat) x

/-- `inf` or `infinity`, upper and lower case letters mixed at will. -/
def InfText (s : Bytes) : Prop :=
  let lower := s.map fun b => if 65 ≤ b.toNat ∧ b.toNat ≤ 90 then b + 32 else b
  lower = [105, 110, 102] ∨ lower = [105, 110, 102, 105, 110, 105, 116, 121]

/-- `nan` likewise. -/
def NaNText (s : Bytes) : Prop :=
  (s.map fun b => if 65 ≤ b.toNat ∧ b.toNat ≤ 90 then b + 32 else b) = [110, 97, 110]

/-- A text and the bit pattern of the double it stands for. -/
inductive DoubleText : Bytes → Nat → Prop
  | nan {s : Bytes} : NaNText s → DoubleText s 0x7FF8000000000001
  | inf {s : Bytes} : InfText s → DoubleText s infBits
  | plusInf {s : Bytes} : InfText s → DoubleText (43 :: s) infBits
  | minusInf {s : Bytes} : InfText s → DoubleText (45 :: s) (2 ^ 63 + infBits)
  | number {s : Bytes} {m b : Nat} {z : Int} {x : Nat} : FloatText s m b z → NearestPow m b z x → DoubleText s x
  | plus {s : Bytes} {m b : Nat} {z : Int} {x : Nat} : FloatText s m b z → NearestPow m b z x → DoubleText (43 :: s) x
  | minus {s : Bytes} {m b : Nat} {z : Int} {x : Nat} : FloatText s m b z → NearestPow m b z x → DoubleText (45 :: s) (2 ^ 63 + x)

/-- At most 2000 bytes, or no exponent from 100000 on at the end. -/
def Moderate (s : Bytes) : Prop :=
  s.length ≤ 2000 ∨ ∀ u t z, s = u ++ t → Exponent [101, 69, 112, 80] t z → z.natAbs < 100000

/-- Digits, no leading zero, then a fraction and an exponent, each of which may be missing (RFC 8259, section 6). -/
def JsonNumber (s : Bytes) : Prop :=
  ∃ sign int frac exp, s = sign ++ int ++ frac ++ exp ∧ (sign = [] ∨ sign = [45]) ∧
    (Digits int ∧ (int.head? = some 48 → int = [48])) ∧
    (frac = [] ∨ ∃ d, Digits d ∧ frac = 46 :: d) ∧
    (exp = [] ∨ ∃ c d, (c = 101 ∨ c = 69) ∧ Digits d ∧ (exp = c :: d ∨ exp = c :: 43 :: d ∨ exp = c :: 45 :: d))

end Verif.Spec
