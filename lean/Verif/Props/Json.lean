import Verif.Proofs.Text
/-! Properties C49 and C59: JSON of 64-bit integers, hex text. -/
namespace Verif.Props
open Verif

/-- C49: `Int64` survives `MarshalJSON` and `UnmarshalJSON`. -/
theorem C49_int64_roundtrip (z : Int) (h0 : -2 ^ 63 ≤ z) (h1 : z < 2 ^ 63) :
    int64UnmarshalJSON (int64MarshalJSON z) = .ok z := by
  unfold int64MarshalJSON
  split
  · show (match jsonString ([34] ++ decimalInt z ++ [34]) with
      | .ok s => parseInt64 s
      | .err e => .err e
      | .panic => .panic) = _
    rw [jsonString_quoted _ (plain_decimalInt z)]
    exact parseInt64_decimalInt h0 h1
  · have hj := jsonInt64_decimalInt h0 h1
    have hp := plain_decimalInt z
    unfold int64UnmarshalJSON
    split
    · rename_i h; rw [h] at hj; cases hj
    · rename_i t h
      exact absurd rfl (hp 34 (by rw [h]; simp)).2.2.1
    · exact hj

/-- C49: `Uint64` survives `MarshalJSON` and `UnmarshalJSON`. -/
theorem C49_uint64_roundtrip (n : Nat) (h : n < 2 ^ 64) : uint64UnmarshalJSON (uint64MarshalJSON n) = .ok n := by
  have hp : ∀ b ∈ decimal n, Plain b := fun b hb => plain_digit (decimal_digits n b hb)
  unfold uint64MarshalJSON
  split
  · show (match jsonString ([34] ++ decimal n ++ [34]) with
      | .ok s => parseUint64 s
      | .err e => .err e
      | .panic => .panic) = _
    rw [jsonString_quoted _ hp]
    exact parseUint64_decimal h
  · have hj := jsonUint64_decimal h
    unfold uint64UnmarshalJSON
    split
    · rename_i h; rw [h] at hj; cases hj
    · rename_i t h
      exact absurd rfl (hp 34 (by rw [h]; simp)).2.2.1
    · exact hj

/-- The decimal text of a number: an optional minus sign and digits without leading zeros. -/
def DecimalText (z : Int) (s : Bytes) : Prop :=
  ∃ digits : Bytes, s = (if z < 0 then [45] else []) ++ digits ∧ digits ≠ [] ∧
    (∀ b ∈ digits, 48 ≤ b.toNat ∧ b.toNat ≤ 57) ∧
    digits.foldl (fun acc b => acc * 10 + (b.toNat - 48)) 0 = z.natAbs ∧ (digits.head? = some 48 → digits = [48])

theorem digitsValue_fold (d : Bytes) : ∀ acc, (∀ b ∈ d, isDigit b = true) →
    digitsValue acc d = some (d.foldl (fun acc b => acc * 10 + (b.toNat - 48)) acc) := by
  induction d with
  | nil => intro acc _; rfl
  | cons b d ih =>
    intro acc hd
    rw [digitsValue, if_pos (hd b (by simp)), ih _ fun x hx => hd x (by simp [hx])]
    rfl

theorem decimalInt_text (z : Int) : DecimalText z (decimalInt z) := by
  refine ⟨decimal z.natAbs, ?_, decimal_ne_nil _, fun b hb => (isDigit_iff b).1 (decimal_digits _ b hb), ?_, fun hh => ?_⟩
  · unfold decimalInt; split <;> rfl
  · have := digitsValue_fold _ 0 (decimal_digits z.natAbs)
    rw [decimal_value, Option.some.injEq] at this
    exact this.symm
  · by_cases hv : z.natAbs < 10
    · rw [decimal_small hv] at hh ⊢
      simp only [List.head?_cons, Option.some.injEq] at hh
      rw [hh]
    · obtain ⟨b, c, t, he, hb⟩ := decimal_big (n := z.natAbs) (by omega)
      rw [he] at hh
      simp only [List.head?_cons, Option.some.injEq] at hh
      exact absurd hh hb

/-- C49: beyond ±(2^32-1) the decimal text is quoted, otherwise it is bare. -/
theorem C49_int64_format (z : Int) : ∃ s, DecimalText z s ∧
    int64MarshalJSON z = if z.natAbs ≤ 2 ^ 32 - 1 then s else [34] ++ s ++ [34] := by
  refine ⟨_, decimalInt_text z, ?_⟩
  unfold int64MarshalJSON
  by_cases h : z.natAbs ≤ 2 ^ 32 - 1
  · rw [if_pos h, if_neg (by omega)]
  · rw [if_neg h, if_pos (by omega)]

/-- C49: the same for `Uint64`. -/
theorem C49_uint64_format (n : Nat) : ∃ s, DecimalText n s ∧
    uint64MarshalJSON n = if n ≤ 2 ^ 32 - 1 then s else [34] ++ s ++ [34] := by
  refine ⟨_, decimalInt_text n, ?_⟩
  have : decimalInt (n : Int) = decimal n := by unfold decimalInt; rw [if_neg (by omega)]; rfl
  unfold uint64MarshalJSON
  rw [this]
  by_cases h : n ≤ 2 ^ 32 - 1
  · rw [if_pos h, if_neg (by omega)]
  · rw [if_neg h, if_pos (by omega)]

example : int64MarshalJSON (-2 ^ 63) = "\"-9223372036854775808\"".toUTF8.toList := by decide +kernel
example : int64MarshalJSON (-5) = "-5".toUTF8.toList := by decide +kernel
example : int64UnmarshalJSON "\"-9223372036854775808\"".toUTF8.toList = .ok (-2 ^ 63) := by decide +kernel
example : uint64MarshalJSON (2 ^ 32) = "\"4294967296\"".toUTF8.toList := by decide +kernel
example : uint64UnmarshalJSON " 12 ".toUTF8.toList = .ok 12 := by decide +kernel

/-- Lower-case hex digit of a number below 16. -/
def lowerHex (d : Nat) : UInt8 := ("0123456789abcdef".toUTF8.toList)[d]?.getD 0

/-- C59: two lower-case hex digits per byte, high half first. -/
theorem C59_format (t : Bytes) :
    hexBytesString t = t.flatMap (fun b => [lowerHex (b.toNat / 16), lowerHex (b.toNat % 16)]) ∧
    hexBytesMarshalJSON t = [34] ++ hexBytesString t ++ [34] := by
  refine ⟨?_, rfl⟩
  have hd : ∀ d, d < 16 → hexDigit d = lowerHex d := fun d h => by
    have : ∀ d : Fin 16, hexDigit d.val = lowerHex d.val := by decide +kernel
    exact this ⟨d, h⟩
  unfold hexBytesString
  induction t with
  | nil => rfl
  | cons b t ih =>
    have := b.toNat_lt
    rw [hexEncode, ih, List.flatMap_cons, hd _ (by omega), hd _ (by omega)]
    rfl

/-- C59: `UnmarshalJSON` restores the bytes. -/
theorem C59_roundtrip (t : Bytes) : hexBytesUnmarshalJSON (hexBytesMarshalJSON t) = .ok t := by
  unfold hexBytesUnmarshalJSON hexBytesMarshalJSON
  rw [jsonString_quoted _ (plain_hexEncode t)]
  exact hexDecode_hexEncode t

example : hexBytesMarshalJSON [0xde, 0xad, 0x01] = "\"dead01\"".toUTF8.toList := by decide +kernel
example : hexBytesUnmarshalJSON " \"DEad01\"".toUTF8.toList = .ok [0xde, 0xad, 0x01] := by decide +kernel

end Verif.Props
