import Verif.Spec.Wire
import Verif.Proofs.Writes
/-! The byte formats of the specification agree with those of the primitive layer. -/
set_option linter.unusedSimpArgs false
namespace Verif
open Spec

theorem putLE_range (k n : Nat) : putLE k n = (List.range k).map fun i => UInt8.ofNat (n / 256 ^ i) := by
  induction k generalizing n with
  | zero => rfl
  | succ k ih =>
    rw [List.range_succ_eq_map, putLE, ih]
    simp only [List.map_cons, Nat.pow_zero, Nat.div_one, List.map_map, List.cons.injEq, true_and]
    apply List.map_congr_left
    intro i _
    simp only [Function.comp, Nat.pow_succ, Nat.div_div_eq_div_mul, Nat.mul_comm]

theorem fixed_eq (o : Order) (k n : Nat) : fixed o k n = putUint o k n := by
  cases o <;> simp [fixed, putUint, putLE_range]

@[simp] theorem fixed_length (o : Order) (k n : Nat) : (fixed o k n).length = k := by simp [fixed_eq]

theorem fixed_one (n : Nat) : fixed .le 1 n = [UInt8.ofNat n] := by simp [fixed, List.range_succ]

theorem fixed_one' (o : Order) (n : Nat) : fixed o 1 n = [UInt8.ofNat n] := by cases o <;> simp [fixed, List.range_succ]

theorem twos_eq (b : Nat) (z : Int) : twos b z = toUnsigned b z := rfl

theorem or80_mod (n : Nat) (_h : ¬ n < 128) : UInt8.ofNat n ||| 0x80 = UInt8.ofNat (n % 128 + 128) := by
  rw [← UInt8.toNat_inj]
  have h2 : ∀ m < 128, m + 128 = m ||| 128 := by decide
  have h3 : (UInt8.ofNat n).toNat ||| 128 = n % 128 ||| 128 := by
    have : (UInt8.ofNat n).toNat = n % 256 := by simp
    rw [this]
    apply Nat.eq_of_testBit_eq
    intro i
    have e1 : (128 : Nat) = 2 ^ 7 := rfl
    have e2 : (256 : Nat) = 2 ^ 8 := rfl
    rw [Nat.testBit_or, Nat.testBit_or, e2]
    conv => lhs; lhs; rw [Nat.testBit_mod_two_pow]
    conv => rhs; lhs; rw [e1, Nat.testBit_mod_two_pow]
    rw [e1, Nat.testBit_two_pow]
    by_cases hi : i = 7
    · subst hi; simp
    · by_cases h7 : i < 7
      · simp [h7, show i < 8 by omega]
      · simp [h7, show ¬ i < 8 by omega]
  have hlt : n % 128 < 128 := Nat.mod_lt _ (by decide)
  rw [UInt8.toNat_or]
  simp only [UInt8.toNat_ofNat, UInt8.reduceToNat, UInt8.toNat_ofNat']
  simp only [UInt8.toNat_ofNat'] at h3
  rw [h3, ← h2 _ hlt]
  omega

theorem varint_fuel (fuel : Nat) : ∀ n, n < 2 ^ (7 * (fuel + 1)) → uvarintBytes (fuel + 1) n = varint n := by
  induction fuel with
  | zero =>
    intro n hn
    rw [uvarintBytes, varint, if_pos (by omega), if_pos (by omega)]
  | succ f ih =>
    intro n hn
    rw [uvarintBytes, varint]
    split
    · rfl
    · rename_i h
      rw [or80_mod n h, ih (n / 128)]
      rw [Nat.div_lt_iff_lt_mul (by decide)]
      calc n < 2 ^ (7 * (f + 1 + 1)) := hn
        _ = 2 ^ (7 * (f + 1)) * 128 := by rw [Nat.mul_add, Nat.pow_add]

theorem varint_eq (n : Nat) (h : n < 2 ^ 64) : varint n = uvarintBytes 10 n :=
  (varint_fuel 9 n (by omega)).symm

theorem zig_eq (z : Int) (h0 : -2 ^ 63 ≤ z) (h1 : z < 2 ^ 63) : zig z = zigzag z := by
  unfold zig
  by_cases h : 0 ≤ z
  · rw [if_pos h, zigzag_of_nonneg h h1]; omega
  · rw [if_neg h, zigzag_of_neg (by omega) h0]; omega

theorem putLE_append (a b n m : Nat) (h : n < 256 ^ a) : putLE a n ++ putLE b m = putLE (a + b) (m * 256 ^ a + n) := by
  induction a generalizing n with
  | zero => simp at h; subst h; simp [putLE]
  | succ a ih =>
    rw [show a + 1 + b = (a + b) + 1 by omega]
    simp only [putLE, List.cons_append]
    have hd : (m * 256 ^ (a + 1) + n) / 256 = m * 256 ^ a + n / 256 := by
      rw [Nat.pow_succ, ← Nat.mul_assoc, Nat.mul_comm _ 256, Nat.mul_add_div (by decide)]
    have hm : UInt8.ofNat (m * 256 ^ (a + 1) + n) = UInt8.ofNat n := by
      rw [← UInt8.toNat_inj]
      simp only [UInt8.toNat_ofNat']
      rw [Nat.pow_succ, ← Nat.mul_assoc, Nat.add_comm, show (2 : Nat) ^ 8 = 256 from rfl, Nat.add_mul_mod_self_right]
    rw [hd, hm, ← ih (n / 256) (by rw [Nat.pow_succ] at h; omega)]

theorem fixed128_eq (o : Order) (lo hi : Nat) (h : lo < 2 ^ 64) : fixed o 16 (hi * 2 ^ 64 + lo) = put128 o lo hi := by
  have := putLE_append 8 8 lo hi (by omega)
  rw [show (256 : Nat) ^ 8 = 2 ^ 64 from rfl] at this
  rw [fixed_eq]
  cases o
  · simp only [put128, putUint]; exact this.symm
  · simp only [put128, putUint]; rw [← List.reverse_append, this]

theorem lenPrefix_eq (e : Encoding) (n : Nat) (h : e = .bin → n < 2 ^ 64) : lenPrefix e n = lenBytes e n := by
  cases e
  · exact varint_eq n (h rfl)
  · rfl
  · simp [lenPrefix, lenBytes, fixed_eq]
  · rfl

theorem maxLen_eq (e : Encoding) : maxLen e = lenMaxW e := by cases e <;> rfl

end Verif
