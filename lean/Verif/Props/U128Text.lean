import Verif.Props.U128
import Verif.Props.Json
/-! Properties C69 and C70: texts of 128-bit numbers. -/
namespace Verif.Props
open Verif Verif.Spec

/-- The two's-complement number a 128-bit value stands for. -/
def signed128 (i : U128) : Int := if i.hi < 2 ^ 63 then (i.hi : Int) * 2 ^ 64 + i.lo else (i.hi : Int) * 2 ^ 64 + i.lo - 2 ^ 128

/-- C69: `Int128.DecimalString` is the decimal text of the signed value, `Uint128.DecimalString` and `Uint128.String`
of the unsigned one. -/
theorem C69_decimalString (i : U128) (h : i.Valid) :
    DecimalText (signed128 i) (int128DecimalString i) ∧ DecimalText ((i.hi : Int) * 2 ^ 64 + i.lo) i.string := by
  refine ⟨?_, ?_⟩
  · unfold int128DecimalString
    rw [C47_int128 i h]
    exact decimalInt_text _
  · unfold U128.string
    rw [C47_bigInt i h]
    exact decimalInt_text _

/-- The decimal text of a number is unique. -/
theorem decimalText_value (z : Int) (s : Bytes) (h : DecimalText z s) : s.head? = some 45 ↔ z < 0 := by
  obtain ⟨d, rfl, hne, hd, _, _⟩ := h
  constructor
  · intro hh
    by_cases hz : z < 0
    · exact hz
    · rw [if_neg hz, List.nil_append] at hh
      have := hd 45 (List.mem_of_mem_head? hh)
      exact absurd this (by decide)
  · intro hz; rw [if_pos hz]; rfl

/-- C69: for values that are not negative `Int128.String` and the JSON of `Int128` denote the value. Missing: negative
values (false, below). -/
theorem C69_int128_string_partial (i : U128) (h : i.Valid) (hs : 0 ≤ signed128 i) :
    DecimalText (signed128 i) i.string ∧ i.marshalJSON = [34] ++ int128DecimalString i ++ [34] := by
  have hhi : i.hi < 2 ^ 63 := by
    have h1 := h.1
    have h2 := h.2
    unfold signed128 at hs
    split at hs
    · assumption
    · omega
  have he : signed128 i = (i.hi : Int) * 2 ^ 64 + i.lo := by unfold signed128; rw [if_pos hhi]
  refine ⟨by rw [he]; exact (C69_decimalString i h).2, ?_⟩
  unfold U128.marshalJSON U128.string int128DecimalString
  rw [C47_bigInt i h, C47_int128 i h, if_pos hhi]

/-- C69 is false of the code: every negative `Int128` prints (String, MarshalJSON) as a positive number, though its
`DecimalString` is right. -/
theorem C69_violated (i : U128) (h : i.Valid) (hs : signed128 i < 0) :
    ¬ DecimalText (signed128 i) i.string ∧ int128DecimalString i ≠ i.string ∧
    DecimalText (signed128 i + 2 ^ 128) i.string := by
  have hnot : ¬ i.hi < 2 ^ 63 := by
    intro hh; unfold signed128 at hs; rw [if_pos hh] at hs; omega
  have hu := (C69_decimalString i h).2
  have hpos : i.string.head? ≠ some 45 := by
    rw [Ne, decimalText_value _ _ hu]; omega
  refine ⟨fun hd => hpos ((decimalText_value _ _ hd).2 hs), fun he => hpos ?_, ?_⟩
  · rw [← he]
    exact (decimalText_value _ _ (C69_decimalString i h).1).2 hs
  · have : signed128 i + 2 ^ 128 = (i.hi : Int) * 2 ^ 64 + i.lo := by
      unfold signed128; rw [if_neg hnot]; omega
    rw [this]; exact hu

-- minus one
example : U128.Valid ⟨2 ^ 64 - 1, 2 ^ 64 - 1, none⟩ ∧ signed128 ⟨2 ^ 64 - 1, 2 ^ 64 - 1, none⟩ = -1 :=
  ⟨by unfold U128.Valid; decide, by decide +kernel⟩
example : U128.marshalJSON ⟨2 ^ 64 - 1, 2 ^ 64 - 1, none⟩ = "\"340282366920938463463374607431768211455\"".toUTF8.toList := by
  decide +kernel
example : int128DecimalString ⟨2 ^ 64 - 1, 2 ^ 64 - 1, none⟩ = "-1".toUTF8.toList := by decide +kernel
example : int128DecimalString ⟨7, 0, none⟩ = "7".toUTF8.toList := by decide +kernel

theorem unmarshal_decimalInt (j : U128) (z : Int) : j.unmarshalJSON ([34] ++ decimalInt z ++ [34]) =
    j.unmarshalDecimal (decimalInt z) := by
  unfold U128.unmarshalJSON
  rw [if_neg (by simp [jsonNull]), jsonString_quoted _ (plain_decimalInt z)]
  simp only []
  rw [if_neg]
  intro hp
  unfold decimalInt at hp
  split at hp
  · simp at hp
  · by_cases hv : z.natAbs < 10
    · rw [decimal_small hv] at hp; simp at hp
    · obtain ⟨b, c, t, he, hb⟩ := decimal_big (n := z.natAbs) (by omega)
      rw [he] at hp
      simp at hp
      rcases hp with hp | hp <;> exact hb hp.1

theorem bigSetString_decimalInt (z : Int) : bigSetString (decimalInt z) = some z := by
  unfold decimalInt
  by_cases hz : z < 0
  · rw [if_pos hz]
    unfold bigSetString
    simp only [scanNat_decimal]
    show some (-(z.natAbs : Int)) = some z
    congr 1; omega
  · rw [if_neg hz, bigSetString_decimal]
    congr 1; omega

/-- Value of digits, one digit at the end. -/
theorem digits_snoc (d : Bytes) (b : UInt8) : (d ++ [b]).foldl (fun acc b => acc * 10 + (b.toNat - 48)) 0 =
    d.foldl (fun acc b => acc * 10 + (b.toNat - 48)) 0 * 10 + (b.toNat - 48) := by
  rw [List.foldl_append]; rfl

theorem digits_ge (d : Bytes) : ∀ acc, acc ≤ d.foldl (fun acc b => acc * 10 + (b.toNat - 48)) acc := by
  induction d with
  | nil => intro acc; exact Nat.le_refl _
  | cons b d ih => intro acc; rw [List.foldl_cons]; exact Nat.le_trans (by omega) (ih _)

theorem digits_pos {d : Bytes} (hne : d ≠ []) (hd : ∀ b ∈ d, 48 ≤ b.toNat ∧ b.toNat ≤ 57) (h0 : d.head? ≠ some 48) :
    0 < d.foldl (fun acc b => acc * 10 + (b.toNat - 48)) 0 := by
  cases d with
  | nil => exact absurd rfl hne
  | cons b d =>
    rw [List.foldl_cons]
    have h1 := digits_ge d (0 * 10 + (b.toNat - 48))
    have h2 := (hd b (by simp)).1
    have h3 : b.toNat ≠ 48 := fun h => h0 (by
      have : b = 48 := by rw [← UInt8.toNat_inj]; exact h
      rw [this]; rfl)
    omega

/-- Digits without leading zeros are determined by their value. -/
theorem digits_unique (k : Nat) : ∀ d d' : Bytes, d.length = k → d ≠ [] → d' ≠ [] →
    (∀ b ∈ d, 48 ≤ b.toNat ∧ b.toNat ≤ 57) → (∀ b ∈ d', 48 ≤ b.toNat ∧ b.toNat ≤ 57) →
    (d.head? = some 48 → d = [48]) → (d'.head? = some 48 → d' = [48]) →
    d.foldl (fun acc b => acc * 10 + (b.toNat - 48)) 0 = d'.foldl (fun acc b => acc * 10 + (b.toNat - 48)) 0 → d = d' := by
  induction k with
  | zero => intro d d' hl hne; exact absurd (List.length_eq_zero_iff.1 hl) hne
  | succ k ih =>
    intro d d' hl hne hne' hd hd' h0 h0' hv
    obtain ⟨i, b, rfl⟩ : ∃ i b, d = i ++ [b] := ⟨d.dropLast, d.getLast hne, (List.dropLast_concat_getLast hne).symm⟩
    obtain ⟨i', b', rfl⟩ : ∃ i b, d' = i ++ [b] := ⟨d'.dropLast, d'.getLast hne', (List.dropLast_concat_getLast hne').symm⟩
    rw [digits_snoc, digits_snoc] at hv
    have hb := hd b (by simp)
    have hb' := hd' b' (by simp)
    have hbb : b = b' := by rw [← UInt8.toNat_inj]; omega
    have hvi : i.foldl (fun acc b => acc * 10 + (b.toNat - 48)) 0 = i'.foldl (fun acc b => acc * 10 + (b.toNat - 48)) 0 := by
      omega
    have hlead : ∀ (i : Bytes) (b : UInt8), ((i ++ [b]).head? = some 48 → i ++ [b] = [48]) → i ≠ [] → i.head? ≠ some 48 := by
      intro i b h hi hh
      cases i with
      | nil => exact hi rfl
      | cons x i =>
        simp only [List.head?_cons, Option.some.injEq] at hh
        have := h (by simp [hh])
        have := congrArg List.length this
        simp at this
    subst hbb
    congr 1
    by_cases hi : i = []
    · subst hi
      by_cases hi' : i' = []
      · exact hi'.symm
      · have := digits_pos hi' (fun x hx => hd' x (by simp [hx])) (hlead i' b h0' hi')
        rw [← hvi] at this
        exact absurd this (by decide)
    · by_cases hi' : i' = []
      · subst hi'
        have := digits_pos hi (fun x hx => hd x (by simp [hx])) (hlead i b h0 hi)
        rw [hvi] at this
        exact absurd this (by decide)
      · exact ih i i' (by simpa using hl) hi hi' (fun x hx => hd x (by simp [hx])) (fun x hx => hd' x (by simp [hx]))
          (fun h => absurd h (hlead i b h0 hi)) (fun h => absurd h (hlead i' b h0' hi')) hvi

/-- The decimal text of a number is unique. -/
theorem decimalText_unique {z : Int} {s t : Bytes} (hs : DecimalText z s) (ht : DecimalText z t) : s = t := by
  obtain ⟨d, rfl, hne, hd, hv, h0⟩ := hs
  obtain ⟨d', rfl, hne', hd', hv', h0'⟩ := ht
  rw [digits_unique d.length d d' rfl hne hne' hd hd' h0 h0' (hv.trans hv'.symm)]

theorem marshal_text (i : U128) (h : i.Valid) : i.marshalJSON = [34] ++ decimalInt (value128 i) ++ [34] := by
  unfold U128.marshalJSON U128.string U128.bigInt
  rw [setBytes_eq i h]

/-- C70: the decimal text of a number from 0 to 2^128-1 is read as that number, if the receiver is not big endian.
Missing: everything else, which the code gets wrong (below). -/
theorem C70_range_partial (j : U128) (n : Nat) (s : Bytes) (hn : n < 2 ^ 128) (hj : j.endianness ≠ some .be)
    (hs : DecimalText n s) : ∃ i : U128, j.unmarshalJSON ([34] ++ s ++ [34]) = .ok i ∧ i.Valid ∧
      i.hi * 2 ^ 64 + i.lo = n ∧ i.endianness = j.endianness := by
  obtain ⟨lo, hi, hlo, hhi, he⟩ : ∃ lo hi, lo < 2 ^ 64 ∧ hi < 2 ^ 64 ∧ hi * 2 ^ 64 + lo = n :=
    ⟨n % 2 ^ 64, n / 2 ^ 64, Nat.mod_lt _ (by decide), by omega, by omega⟩
  have hv : (⟨lo, hi, none⟩ : U128).Valid := ⟨hlo, hhi⟩
  have hr := C48_uint128_partial _ j hv hj
  obtain ⟨k, hk1, hk2, hk3, hk⟩ : ∃ k : U128, k.lo = lo ∧ k.hi = hi ∧ k.endianness = j.endianness ∧
    j.unmarshalJSON (⟨lo, hi, none⟩ : U128).marshalJSON = .ok k := ⟨⟨lo, hi, j.endianness⟩, rfl, rfl, rfl, hr⟩
  refine ⟨k, ?_, ⟨by rw [hk1]; exact hlo, by rw [hk2]; exact hhi⟩, by rw [hk1, hk2]; exact he, hk3⟩
  rw [← hk, marshal_text _ hv, decimalText_unique hs (decimalInt_text n)]
  rw [show value128 ⟨lo, hi, none⟩ = n from he]

/-- C70 is false of the code. Every number from 2^128 on makes `UnmarshalJSON` panic (`FillBytes`, u128.go:128); the
minus sign of a negative number is dropped; a leading zero turns the text into octal (`SetString(s, 0)`, u128.go:124). -/
theorem C70_violated (j : U128) (n : Nat) (s : Bytes) :
    (2 ^ 128 ≤ n → DecimalText n s → j.unmarshalJSON ([34] ++ s ++ [34]) = .panic) ∧
    (0 < n → n < 2 ^ 128 → j.endianness ≠ some .be → DecimalText (-(n : Int)) s →
      ∃ i, j.unmarshalJSON ([34] ++ s ++ [34]) = .ok i ∧ i.hi * 2 ^ 64 + i.lo = n) ∧
    (⟨0, 0, none⟩ : U128).unmarshalJSON "\"010\"".toUTF8.toList = .ok ⟨8, 0, none⟩ ∧
    int128UnmarshalJSON ⟨0, 0, none⟩ "\"-1\"".toUTF8.toList = .ok ⟨1, 0, none⟩ := by
  refine ⟨fun hn hs => ?_, fun h0 hn hj hs => ?_, by decide +kernel, by decide +kernel⟩
  · rw [decimalText_unique hs (decimalInt_text n), unmarshal_decimalInt]
    unfold U128.unmarshalDecimal
    rw [bigSetString_decimalInt]
    simp only []
    have : bigFillBytes 16 (n : Int) = .panic := by
      unfold bigFillBytes
      rw [if_neg (by rw [show (256 : Nat) ^ 16 = 2 ^ 128 by decide]; omega)]
    rw [this]
  · obtain ⟨i, hi, _, hval, _⟩ := C70_range_partial j n _ hn hj (decimalInt_text n)
    refine ⟨i, ?_, hval⟩
    rw [decimalText_unique hs (decimalInt_text (-(n : Int))), unmarshal_decimalInt]
    rw [unmarshal_decimalInt] at hi
    unfold U128.unmarshalDecimal at hi ⊢
    rw [bigSetString_decimalInt] at hi ⊢
    simp only [] at hi ⊢
    have : bigFillBytes 16 (-(n : Int)) = bigFillBytes 16 (n : Int) := by unfold bigFillBytes; simp
    rw [this]; exact hi

example : DecimalText (2 ^ 128) "340282366920938463463374607431768211456".toUTF8.toList := by
  have : "340282366920938463463374607431768211456".toUTF8.toList = decimalInt (2 ^ 128) := by decide +kernel
  rw [this]; exact decimalInt_text _
example : (⟨0, 0, some .be⟩ : U128).unmarshalJSON "\"340282366920938463463374607431768211456\"".toUTF8.toList = .panic := by
  decide +kernel
example : (⟨9, 9, some .le⟩ : U128).unmarshalJSON "\"18446744073709551617\"".toUTF8.toList = .ok ⟨1, 1, some .le⟩ := by
  decide +kernel

end Verif.Props
