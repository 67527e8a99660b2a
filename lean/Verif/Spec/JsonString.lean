import Verif.Spec.Json
import Verif.Spec.Utf8
/-! JSON strings (RFC 8259, section 7), with the repairs of Go's `encoding/json`: bytes that are not UTF-8 and surrogates
without a partner become U+FFFD. -/
namespace Verif.Spec

/-- Four hex digits and the number they stand for. -/
def Unit4 (u : Bytes) (r : Nat) : Prop :=
  ∃ a b c d w x y z, u = [a, b, c, d] ∧ HexDig a w ∧ HexDig b x ∧ HexDig c y ∧ HexDig d z ∧
    r = ((w * 16 + x) * 16 + y) * 16 + z

def HighSurrogate (r : Nat) : Prop := 0xD800 ≤ r ∧ r < 0xDC00
def LowSurrogate (r : Nat) : Prop := 0xDC00 ≤ r ∧ r < 0xE000

/-- `"`, `\`, `/`, and the letters for backspace, form feed, line feed, carriage return and tab. -/
def shortEscapes : List (UInt8 × UInt8) :=
  [(34, 34), (92, 92), (47, 47), (98, 8), (102, 12), (110, 10), (114, 13), (116, 9)]

/-- The text after the opening quote, up to and including the closing quote, and the string it stands for. -/
inductive Quoted : Bytes → Bytes → Prop
  | close : Quoted [34] []
  | char {s t : Bytes} (r : Nat) : Scalar r → 32 ≤ r → r ≠ 34 → r ≠ 92 → Quoted s t → Quoted (utf8 r ++ s) (utf8 r ++ t)
  | broken {s t : Bytes} (b : UInt8) : (∀ r, Scalar r → ¬ utf8 r <+: b :: s) → Quoted s t →
      Quoted (b :: s) (utf8 0xFFFD ++ t)
  | short {s t : Bytes} (c x : UInt8) : (c, x) ∈ shortEscapes → Quoted s t → Quoted (92 :: c :: s) (x :: t)
  | unit {s t u : Bytes} (r : Nat) : Unit4 u r → Scalar r → Quoted s t → Quoted (92 :: 117 :: u ++ s) (utf8 r ++ t)
  | pair {s t u v : Bytes} (h l : Nat) : Unit4 u h → HighSurrogate h → Unit4 v l → LowSurrogate l → Quoted s t →
      Quoted (92 :: 117 :: u ++ 92 :: 117 :: v ++ s) (utf8 (0x10000 + (h - 0xD800) * 0x400 + (l - 0xDC00)) ++ t)
  | lone {s t u : Bytes} (r : Nat) : Unit4 u r → ¬ Scalar r →
      (HighSurrogate r → ∀ v l, Unit4 v l → LowSurrogate l → ¬ 92 :: 117 :: v <+: s) → Quoted s t →
      Quoted (92 :: 117 :: u ++ s) (utf8 0xFFFD ++ t)

/-- What `json.Unmarshal` into a fresh string accepts: a string, or null, which leaves it empty. -/
def JsonString (data s : Bytes) : Prop :=
  (Padded data nullText ∧ s = []) ∨ ∃ body, Padded data (34 :: body) ∧ Quoted body s

end Verif.Spec
