import Verif.Proofs.Text
import Verif.Proofs.WireBytes
import Verif.Spec.Numbers
/-! Properties C47, C48, C55: 128-bit values as numbers and as JSON, ReverseBytes. -/
namespace Verif.Props
open Verif Verif.Spec

/-- C55: `ReverseBytes` reverses. -/
theorem C55_reverses (s : Bytes) : reverseBytes s = s.reverse := reverseBytes_eq s

/-- C55: twice is the identity. -/
theorem C55_involution (s : Bytes) : reverseBytes (reverseBytes s) = s := by
  rw [reverseBytes_eq, reverseBytes_eq, List.reverse_reverse]

example : reverseBytes [1, 2, 3, 4, 5] = [5, 4, 3, 2, 1] := by decide

/-- The number a 128-bit value stands for. -/
def value128 (i : U128) : Nat := i.hi * 2 ^ 64 + i.lo

theorem bytes_eq (i : U128) (h : i.Valid) : i.bytes = putUint .be 16 (value128 i) := by
  have hc := putLE_append 8 8 i.lo i.hi (by have := h.1; omega)
  rw [show (256 : Nat) ^ 8 = 2 ^ 64 by decide] at hc
  unfold U128.bytes
  cases i.order with
  | le => rw [reverseBytes_eq]; simp only [putUint]; rw [hc]; rfl
  | be => simp only [putUint]; rw [← List.reverse_append, hc]; rfl

theorem leValue_eq (w : Bytes) : leValue w = getLE w := by
  induction w with
  | nil => rfl
  | cons b w ih => simp [leValue, getLE, ih]

theorem value128_lt (i : U128) (h : i.Valid) : value128 i < 256 ^ 16 := by
  have h1 := h.1
  have h2 := h.2
  rw [show (256 : Nat) ^ 16 = 2 ^ 128 by decide]
  unfold value128; omega

theorem setBytes_eq (i : U128) (h : i.Valid) : bigSetBytes i.bytes = value128 i := by
  rw [bytes_eq i h, bigSetBytes_put (value128_lt i h)]

/-- C47: `Bytes` is the sixteen-byte big-endian form of `Hi * 2^64 + Lo`, whatever the `Endianness` field says. -/
theorem C47_bytes (i : U128) (h : i.Valid) : i.bytes.length = 16 ∧ leValue i.bytes.reverse = i.hi * 2 ^ 64 + i.lo := by
  refine ⟨by rw [bytes_eq i h]; simp, ?_⟩
  rw [leValue_eq, ← bigSetBytes_eq, setBytes_eq i h, value128]

/-- C47: `Uint128.BigInt` is `Hi * 2^64 + Lo`. -/
theorem C47_bigInt (i : U128) (h : i.Valid) : i.bigInt = (i.hi : Int) * 2 ^ 64 + i.lo := by
  unfold U128.bigInt
  rw [setBytes_eq i h, value128]; omega

theorem putLE_last (k n : Nat) : (putLE (k + 1) n).reverse = UInt8.ofNat (n / 256 ^ k) :: (putLE k n).reverse := by
  induction k generalizing n with
  | zero => simp [putLE]
  | succ k ih =>
    rw [putLE, List.reverse_cons, ih, putLE, List.reverse_cons, Nat.div_div_eq_div_mul]
    simp [Nat.pow_succ, Nat.mul_comm]

theorem map_xor_value (v : Bytes) : getLE (v.map (· ^^^ 0xff)) + getLE v + 1 = 256 ^ v.length := by
  induction v with
  | nil => rfl
  | cons b v ih =>
    have hb : (b ^^^ 0xff).toNat = 255 - b.toNat := by
      have : ∀ b : Fin 256, (UInt8.ofNat b.val ^^^ 0xff).toNat = 255 - b.val := by decide +kernel
      have h := this ⟨b.toNat, b.toNat_lt⟩
      simpa using h
    have hl := b.toNat_lt
    simp only [List.map_cons, getLE, List.length_cons, hb, Nat.pow_succ]
    omega

/-- C47: `Int128.BigInt` is the two's-complement value. -/
theorem C47_int128 (i : U128) (h : i.Valid) : int128BigInt i =
    if i.hi < 2 ^ 63 then (i.hi : Int) * 2 ^ 64 + i.lo else (i.hi : Int) * 2 ^ 64 + i.lo - 2 ^ 128 := by
  have h1 := h.1
  have h2 := h.2
  have hhead : i.bytes.headD 0 = UInt8.ofNat (value128 i / 256 ^ 15) := by
    rw [bytes_eq i h]; show ((putLE (15 + 1) (value128 i)).reverse).headD 0 = _
    rw [putLE_last]; rfl
  have hq : value128 i / 256 ^ 15 = i.hi / 2 ^ 56 := by
    unfold value128
    rw [show (256 : Nat) ^ 15 = 2 ^ 120 by decide]
    omega
  have hbit : (UInt8.ofNat (i.hi / 2 ^ 56) &&& 0x80 = 0x80) ↔ 2 ^ 63 ≤ i.hi := by
    have : ∀ b : Fin 256, (UInt8.ofNat b.val &&& 0x80 = 0x80) ↔ 128 ≤ b.val := by decide +kernel
    have hx := this ⟨i.hi / 2 ^ 56, by omega⟩
    rw [hx]
    show 128 ≤ i.hi / 2 ^ 56 ↔ _
    omega
  unfold int128BigInt
  simp only []
  rw [hhead, hq]
  by_cases hs : 2 ^ 63 ≤ i.hi
  · rw [if_pos (hbit.2 hs), if_neg (by omega)]
    unfold twosComplement
    rw [bigBytes_value, bigSetBytes_eq]
    have hx := map_xor_value i.bytes.reverse
    rw [← List.map_reverse, ] at *
    rw [← bigSetBytes_eq, setBytes_eq i h, List.length_reverse, (C47_bytes i h).1,
      show (256 : Nat) ^ 16 = 2 ^ 128 by decide] at hx
    unfold value128 at hx
    omega
  · rw [if_neg (by rw [hbit]; exact hs), if_pos (by omega), setBytes_eq i h, value128]
    omega

example : U128.Valid ⟨5, 2 ^ 64 - 1, some .be⟩ := by unfold U128.Valid; decide
example : int128BigInt ⟨5, 2 ^ 64 - 1, some .be⟩ = 5 - 2 ^ 64 := by decide +kernel
example : (U128.bytes ⟨5, 1, none⟩) = [0, 0, 0, 0, 0, 0, 0, 1, 0, 0, 0, 0, 0, 0, 0, 5] := by decide

/-- C48: `MarshalJSON` is a JSON string of decimal digits denoting the unsigned number, without leading zeros. -/
theorem C48_format (i : U128) (h : i.Valid) :
    ∃ digits : Bytes, i.marshalJSON = [34] ++ digits ++ [34] ∧ digits ≠ [] ∧ (∀ b ∈ digits, 48 ≤ b.toNat ∧ b.toNat ≤ 57) ∧
      digits.foldl (fun acc b => acc * 10 + (b.toNat - 48)) 0 = i.hi * 2 ^ 64 + i.lo ∧
      (digits.head? = some 48 → digits = [48]) := by
  have hs : i.string = decimal (value128 i) := by
    unfold U128.string decimalInt U128.bigInt
    rw [setBytes_eq i h, if_neg (by omega)]; rfl
  have hfold : ∀ (d : Bytes) (acc : Nat), (∀ b ∈ d, isDigit b = true) →
      digitsValue acc d = some (d.foldl (fun acc b => acc * 10 + (b.toNat - 48)) acc) := by
    intro d
    induction d with
    | nil => intro acc _; rfl
    | cons b d ih =>
      intro acc hd
      rw [digitsValue, if_pos (hd b (by simp)), ih _ fun x hx => hd x (by simp [hx])]
      rfl
  refine ⟨decimal (value128 i), by rw [U128.marshalJSON, hs], decimal_ne_nil _,
    fun b hb => (isDigit_iff b).1 (decimal_digits _ b hb), ?_, ?_⟩
  · have := hfold _ 0 (decimal_digits (value128 i))
    rw [decimal_value, Option.some.injEq] at this
    rw [← this]; rfl
  · intro hh
    by_cases hv : value128 i < 10
    · rw [decimal_small hv] at hh ⊢
      simp only [List.head?_cons, Option.some.injEq] at hh
      rw [hh]
    · obtain ⟨b, c, t, he, hb⟩ := decimal_big (n := value128 i) (by omega)
      rw [he] at hh
      simp only [List.head?_cons, Option.some.injEq] at hh
      exact absurd hh hb

theorem unmarshalJSON_marshalJSON (i j : U128) (h : i.Valid) : j.unmarshalJSON i.marshalJSON =
    j.unmarshalDecimal (decimal (value128 i)) := by
  have hs : i.string = decimal (value128 i) := by
    unfold U128.string decimalInt U128.bigInt
    rw [setBytes_eq i h, if_neg (by omega)]; rfl
  unfold U128.unmarshalJSON U128.marshalJSON
  rw [if_neg (by simp [jsonNull]), hs, jsonString_quoted _ fun b hb => plain_digit (decimal_digits _ b hb)]
  simp only []
  rw [if_neg]
  intro hp
  by_cases hv : value128 i < 10
  · rw [decimal_small hv] at hp; simp at hp
  · obtain ⟨b, c, t, he, hb⟩ := decimal_big (n := value128 i) (by omega)
    rw [he] at hp
    simp at hp
    rcases hp with hp | hp <;> exact hb hp.1

theorem rev_value (i : U128) (h : i.Valid) : (putUint .be 16 (value128 i)).reverse = put128 .le i.lo i.hi := by
  have hc := putLE_append 8 8 i.lo i.hi (by have := h.1; omega)
  rw [show (256 : Nat) ^ 8 = 2 ^ 64 by decide] at hc
  simp only [putUint, List.reverse_reverse, put128, value128]
  exact hc.symm

theorem fill_value (i : U128) (h : i.Valid) : bigFillBytes 16 (value128 i : Int) = .ok (putUint .be 16 (value128 i)) := by
  unfold bigFillBytes
  rw [Int.natAbs_natCast]
  exact if_pos (value128_lt i h)

theorem read_value (i : U128) (h : i.Valid) :
    (readUint128 .le (Dec.new (put128 .le i.lo i.hi) .bin)).1 = .ok (i.lo, i.hi) := by
  have hr := readUint128_reads .bin .le i.lo i.hi h.1 h.2 (Dec.new (put128 .le i.lo i.hi) .bin) [] rfl (Dec.new_ok _ _)
    (by rw [Dec.new_rest, List.append_nil])
  rw [hr]

theorem unmarshalDecimal_le (j : U128) (n lo hi : Nat) (oo : Bytes) (ho : j.order = .le)
    (hf : bigFillBytes 16 (n : Int) = .ok oo)
    (hv : (readUint128 .le (Dec.new (reverseBytes oo) .bin)).1 = .ok (lo, hi)) :
    j.unmarshalDecimal (decimal n) = .ok { j with lo := lo, hi := hi } := by
  unfold U128.unmarshalDecimal
  simp only [bigSetString_decimal, hf, ho, hv]

/-- C48: unmarshalling into a `Uint128` whose `Endianness` is nil or little endian restores `Lo` and `Hi`; the
marshalled value's `Endianness` does not matter. Missing: a big-endian receiver and the hex form (both false, below). -/
theorem C48_uint128_partial (i j : U128) (h : i.Valid) (hj : j.endianness ≠ some .be) :
    j.unmarshalJSON i.marshalJSON = .ok { j with lo := i.lo, hi := i.hi } := by
  have ho : j.order = .le := by
    unfold U128.order
    cases he : j.endianness with
    | none => rfl
    | some o => cases o with
      | le => rfl
      | be => exact absurd he hj
  rw [unmarshalJSON_marshalJSON i j h]
  refine unmarshalDecimal_le j _ _ _ _ ho (fill_value i h) ?_
  rw [reverseBytes_eq, rev_value i h]
  exact read_value i h

/-- C48: the same for `Int128` and `Float128`, whatever the receiver held before. -/
theorem C48_int128 (i j : U128) (h : i.Valid) :
    int128UnmarshalJSON j i.marshalJSON = .ok { lo := i.lo, hi := i.hi, endianness := none } := by
  unfold int128UnmarshalJSON
  have ht : trimJson i.marshalJSON = i.marshalJSON := by
    unfold U128.marshalJSON
    apply trimJson_id
    · intro b hb; simp at hb; subst hb; rfl
    · intro b hb; rw [List.getLast?_append] at hb; simp at hb; subst hb; rfl
  rw [ht, C48_uint128_partial i _ h (by simp)]

example : U128.marshalJSON ⟨5, 1, some .be⟩ = [34] ++ "18446744073709551621".toUTF8.toList ++ [34] := by decide +kernel
example : (⟨7, 7, some .le⟩ : U128).unmarshalJSON ([34] ++ "18446744073709551621".toUTF8.toList ++ [34]) =
    .ok ⟨5, 1, some .le⟩ := by decide +kernel

/-- C48 is false of the code: a big-endian `Uint128` (as made by `NewUint128BigEndian`) holding 1 comes back byte-reversed
from its own JSON (u128.go:128-133), and no string starting with 0x is ever accepted (u128.go:143-164): the sixteen
characters it insists on are eight bytes, of which it then slices the last eight of sixteen. -/
theorem C48_violated :
    (⟨0, 0, some .be⟩ : U128).unmarshalJSON (U128.marshalJSON ⟨1, 0, some .be⟩) =
      .ok ⟨0, 0x0100000000000000, some .be⟩ ∧
    (∀ (i : U128) (s : Bytes) (j : U128), (s.take 2 = [48, 120] ∨ s.take 2 = [48, 88]) → (∀ b ∈ s, Plain b) →
      i.unmarshalJSON ([34] ++ s ++ [34]) ≠ .ok j) ∧
    (⟨0, 0, none⟩ : U128).unmarshalJSON ([34] ++ U128.hexString ⟨1, 0, none⟩ ++ [34]) = .err .parse ∧
    (⟨0, 0, none⟩ : U128).unmarshalJSON ([34] ++ "0x0000000000000001".toUTF8.toList ++ [34]) = .panic := by
  refine ⟨by decide +kernel, ?_, by decide +kernel, by decide +kernel⟩
  intro i s j hp hpl
  unfold U128.unmarshalJSON
  rw [if_neg (by simp [jsonNull]), jsonString_quoted s hpl]
  simp only []
  rw [if_pos hp]
  unfold U128.unmarshalHex
  simp only []
  split
  · simp
  · rename_i hl
    have hlen : ∀ (t d : Bytes), hexDecode t = .ok d → 2 * d.length = t.length := by
      intro t
      induction t using hexDecode.induct with
      | case1 => intro d h; simp [hexDecode] at h; subst h; rfl
      | case2 => intro d h; simp [hexDecode] at h
      | case3 a b rest x y ha hb r hr ih =>
        intro d h
        simp only [hexDecode, ha, hb, hr, Res.ok.injEq] at h
        have := ih _ hr
        rw [← h]; simp; omega
      | case4 a b rest x y ha hb e hr ih => intro d h; simp [hexDecode, ha, hb, hr] at h
      | case5 a b rest x y ha hb hr ih => intro d h; simp [hexDecode, ha, hb, hr] at h
      | case6 a b rest hn => intro d h; simp only [hexDecode] at h; cases h
    cases hd : hexDecode (s.drop 2) with
    | err e => simp
    | panic => simp
    | ok data =>
      simp only []
      have := hlen _ _ hd
      rw [getUint_short _ 8 (data.drop 8) (by simp at *; omega)]
      cases getUint i.order 8 (data.take 8) <;> simp

end Verif.Props
