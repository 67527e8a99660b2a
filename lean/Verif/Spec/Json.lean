import Verif.Basic
/-! Texts of numbers and literals as RFC 8259 and `strconv` describe them, independently of the model. -/
namespace Verif.Spec

/-- The number a string of decimal digits stands for. -/
def digitsNat (s : Bytes) : Nat := s.foldl (fun acc b => acc * 10 + (b.toNat - 48)) 0

/-- One or more decimal digits. -/
def Digits (s : Bytes) : Prop := s ≠ [] ∧ ∀ b ∈ s, 48 ≤ b.toNat ∧ b.toNat ≤ 57

/-- Digits of a JSON integer: no leading zero. -/
def JsonNat (s : Bytes) (n : Nat) : Prop := Digits s ∧ (s.head? = some 48 → s = [48]) ∧ n = digitsNat s

/-- A JSON number without fraction and exponent. -/
def JsonInt (s : Bytes) (z : Int) : Prop :=
  (∃ n, JsonNat s n ∧ z = n) ∨ (∃ d n, s = 45 :: d ∧ JsonNat d n ∧ z = -n)

/-- Integer text with an optional sign and possibly leading zeros. -/
def SignedText (s : Bytes) (z : Int) : Prop :=
  ∃ d, Digits d ∧ ((s = d ∧ z = digitsNat d) ∨ (s = 43 :: d ∧ z = digitsNat d) ∨ (s = 45 :: d ∧ z = -digitsNat d))

/-- JSON white space only. -/
def Blank (s : Bytes) : Prop := ∀ b ∈ s, b = 32 ∨ b = 9 ∨ b = 10 ∨ b = 13

/-- `data` is `t` surrounded by white space. -/
def Padded (data t : Bytes) : Prop := ∃ a b, Blank a ∧ Blank b ∧ data = a ++ t ++ b

def nullText : Bytes := [110, 117, 108, 108]
def trueText : Bytes := [116, 114, 117, 101]
def falseText : Bytes := [102, 97, 108, 115, 101]

/-- Printable ASCII other than the quote and the backslash: bytes that stand for themselves in a JSON string. -/
def Verbatim (s : Bytes) : Prop := ∀ b ∈ s, 32 ≤ b.toNat ∧ b.toNat < 128 ∧ b ≠ 34 ∧ b ≠ 92

/-- The byte is a hex digit, in either case, of value `x`. -/
def HexDig (b : UInt8) (x : Nat) : Prop :=
  [48, 49, 50, 51, 52, 53, 54, 55, 56, 57, 97, 98, 99, 100, 101, 102][x]? = some b ∨
  [48, 49, 50, 51, 52, 53, 54, 55, 56, 57, 65, 66, 67, 68, 69, 70][x]? = some b

/-- Two hex digits per byte, high half first. -/
inductive HexText : Bytes → Bytes → Prop
  | nil : HexText [] []
  | cons {a b : UInt8} {x y : Nat} {s t : Bytes} : HexDig a x → HexDig b y → HexText s t →
      HexText (a :: b :: s) (UInt8.ofNat (16 * x + y) :: t)

end Verif.Spec
