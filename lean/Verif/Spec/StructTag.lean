import Verif.Spec.JsonString
/-! Struct tags by the convention of package `reflect`: `key:"value"` pairs separated by spaces, values as Go string
literals (Go specification, "Interpreted string literals", with the repair of bytes that are not UTF-8). -/
namespace Verif.Spec

/-- Some hex digits and the number they stand for. -/
inductive HexNum : Bytes → Nat → Prop
  | nil : HexNum [] 0
  | snoc {u : Bytes} {n : Nat} (d : UInt8) (x : Nat) : HexNum u n → HexDig d x → HexNum (u ++ [d]) (n * 16 + x)

/-- An octal digit and its value. -/
def OctDig (d : UInt8) (x : Nat) : Prop := x < 8 ∧ d.toNat = 48 + x

/-- The letters for bell, backspace, form feed, line feed, carriage return, tab, vertical tab; backslash and quote. -/
def goEscapes : List (UInt8 × UInt8) :=
  [(97, 7), (98, 8), (102, 12), (110, 10), (114, 13), (116, 9), (118, 11), (92, 92), (34, 34)]

/-- The inside of a double-quoted Go string literal and the string it stands for. -/
inductive GoLiteral : Bytes → Bytes → Prop
  | nil : GoLiteral [] []
  | char {s t : Bytes} (r : Nat) : Scalar r → r ≠ 34 → r ≠ 92 → r ≠ 10 → GoLiteral s t →
      GoLiteral (utf8 r ++ s) (utf8 r ++ t)
  | broken {s t : Bytes} (b : UInt8) : (∀ r, Scalar r → ¬ utf8 r <+: b :: s) → GoLiteral s t →
      GoLiteral (b :: s) (utf8 0xFFFD ++ t)
  | short {s t : Bytes} (c x : UInt8) : (c, x) ∈ goEscapes → GoLiteral s t → GoLiteral (92 :: c :: s) (x :: t)
  | hex {s t u : Bytes} (n : Nat) : HexNum u n → u.length = 2 → GoLiteral s t →
      GoLiteral (92 :: 120 :: (u ++ s)) (UInt8.ofNat n :: t)
  | octal {s t : Bytes} (a b c : UInt8) (x y z : Nat) : OctDig a x → OctDig b y → OctDig c z → x * 64 + y * 8 + z < 256 →
      GoLiteral s t → GoLiteral (92 :: a :: b :: c :: s) (UInt8.ofNat (x * 64 + y * 8 + z) :: t)
  | small {s t u : Bytes} (r : Nat) : HexNum u r → u.length = 4 → Scalar r → GoLiteral s t →
      GoLiteral (92 :: 117 :: (u ++ s)) (utf8 r ++ t)
  | big {s t u : Bytes} (r : Nat) : HexNum u r → u.length = 8 → Scalar r → GoLiteral s t →
      GoLiteral (92 :: 85 :: (u ++ s)) (utf8 r ++ t)

/-- Text without an unescaped quote, and without a backslash at its end. -/
inductive Closed : Bytes → Prop
  | nil : Closed []
  | char {s : Bytes} (b : UInt8) : b ≠ 34 → b ≠ 92 → Closed s → Closed (b :: s)
  | escape {s : Bytes} (c : UInt8) : Closed s → Closed (92 :: c :: s)

/-- A key: no control characters, spaces, colons, quotes; not empty. -/
def TagKey (k : Bytes) : Prop := k ≠ [] ∧ ∀ b ∈ k, 33 ≤ b.toNat ∧ b ≠ 58 ∧ b ≠ 34 ∧ b ≠ 127

/-- One pair of a tag: spaces before it, key, literal. -/
structure TagPair where
  spaces : Nat
  key : Bytes
  literal : Bytes

/-- Key and literal are well formed. -/
def TagPair.Ok (p : TagPair) : Prop := TagKey p.key ∧ Closed p.literal

/-- The text of a pair. -/
def TagPair.text (p : TagPair) : Bytes := List.replicate p.spaces 32 ++ p.key ++ [58, 34] ++ p.literal ++ [34]

/-- The text of some pairs. -/
def tagText (ps : List TagPair) : Bytes := ps.flatMap TagPair.text

/-- No pair begins here. -/
def NoPair (tail : Bytes) : Prop := ¬ ∃ p : TagPair, p.Ok ∧ p.text <+: tail

/-- The value a tag gives to a key: that of the first pair with the key, pairs being read from the left as long as there
are any; empty if there is no such pair or its literal is not a Go string literal. -/
inductive TagValue (key : Bytes) : Bytes → Bytes → Prop
  | found (ps : List TagPair) (p : TagPair) (rest v : Bytes) : (∀ q ∈ ps, q.Ok ∧ q.key ≠ key) → p.Ok → p.key = key →
      GoLiteral p.literal v → TagValue key (tagText ps ++ p.text ++ rest) v
  | illegal (ps : List TagPair) (p : TagPair) (rest : Bytes) : (∀ q ∈ ps, q.Ok ∧ q.key ≠ key) → p.Ok → p.key = key →
      (∀ v, ¬ GoLiteral p.literal v) → TagValue key (tagText ps ++ p.text ++ rest) []
  | missing (ps : List TagPair) (tail : Bytes) : (∀ q ∈ ps, q.Ok ∧ q.key ≠ key) → NoPair tail →
      TagValue key (tagText ps ++ tail) []

end Verif.Spec
