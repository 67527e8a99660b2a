import Verif.Model.Bits
/-! Lemmas on positional encodings and integer conversions. -/
namespace Verif

@[simp] theorem putLE_length (k v : Nat) : (putLE k v).length = k := by
  induction k generalizing v with
  | zero => rfl
  | succ k ih => simp [putLE, ih]

@[simp] theorem putUint_length (o : Order) (k v : Nat) : (putUint o k v).length = k := by
  cases o <;> simp [putUint]

theorem getLE_putLE (k v : Nat) (h : v < 256 ^ k) : getLE (putLE k v) = v := by
  induction k generalizing v with
  | zero => simp at h; simp [putLE, getLE, h]
  | succ k ih =>
    have h' : v / 256 < 256 ^ k := by
      rw [Nat.div_lt_iff_lt_mul (by decide)]; rw [Nat.pow_succ] at h; exact h
    simp only [putLE, getLE, ih _ h']
    simp only [UInt8.toNat_ofNat']
    omega

theorem getLE_lt (bs : Bytes) : getLE bs < 256 ^ bs.length := by
  induction bs with
  | nil => simp [getLE]
  | cons b bs ih =>
    have := b.toNat_lt
    simp only [getLE, List.length_cons, Nat.pow_succ]
    omega

theorem putLE_getLE (bs : Bytes) : putLE bs.length (getLE bs) = bs := by
  induction bs with
  | nil => rfl
  | cons b bs ih =>
    have hb := b.toNat_lt
    simp only [List.length_cons, putLE, getLE]
    have h1 : (b.toNat + 256 * getLE bs) / 256 = getLE bs := by omega
    rw [h1, ih]
    congr 1
    apply UInt8.toNat_inj.mp
    rw [UInt8.toNat_ofNat']
    omega

theorem getLE_inj {a b : Bytes} (hl : a.length = b.length) (h : getLE a = getLE b) : a = b := by
  rw [← putLE_getLE a, ← putLE_getLE b, hl, h]

theorem getUint_putUint (o : Order) (k v : Nat) (rest : Bytes) (h : v < 256 ^ k) :
    getUint o k (putUint o k v ++ rest) = .ok v := by
  cases o <;> simp [getUint, putUint, getLE_putLE _ _ h, List.take_append_of_le_length]

theorem getUint_short (o : Order) (k : Nat) (b : Bytes) (h : b.length < k) : getUint o k b = .panic := by
  simp [getUint, h]

theorem getUint_ok (o : Order) (k : Nat) (b : Bytes) (h : k ≤ b.length) :
    ∃ v, getUint o k b = .ok v ∧ v < 256 ^ k ∧ putUint o k v = b.take k := by
  have hlen : (b.take k).length = k := by simp [List.length_take]; omega
  cases o
  · refine ⟨getLE (b.take k), by simp [getUint, show ¬ b.length < k by omega], ?_, ?_⟩
    · have := getLE_lt (b.take k); rwa [hlen] at this
    · have := putLE_getLE (b.take k); rw [hlen] at this; exact this
  · refine ⟨getLE (b.take k).reverse, by simp [getUint, show ¬ b.length < k by omega], ?_, ?_⟩
    · have := getLE_lt (b.take k).reverse; rwa [List.length_reverse, hlen] at this
    · have := putLE_getLE (b.take k).reverse
      rw [List.length_reverse, hlen] at this
      simp only [putUint]; rw [this, List.reverse_reverse]

/-- only the first `k` bytes matter -/
theorem getUint_append (o : Order) (k : Nat) (b c : Bytes) (h : k ≤ b.length) :
    getUint o k (b ++ c) = getUint o k b := by
  have h1 : ¬ (b ++ c).length < k := by simp; omega
  have h2 : ¬ b.length < k := by omega
  cases o <;> simp only [getUint, h1, h2, if_false] <;> rw [List.take_append_of_le_length h]

theorem toUnsigned_lt (b : Nat) (z : Int) : toUnsigned b z < 2 ^ b := by
  unfold toUnsigned
  have hp : (0 : Int) < 2 ^ b := Int.pow_pos (by decide)
  have h1 := Int.emod_nonneg z (Int.ne_of_gt hp)
  have h2 := Int.emod_lt_of_pos z hp
  have : ((2 ^ b : Nat) : Int) = (2 : Int) ^ b := by push_cast; rfl
  omega

theorem toUnsigned_of_nonneg {b : Nat} {z : Int} (h0 : 0 ≤ z) (h1 : z < 2 ^ b) : toUnsigned b z = z.toNat := by
  unfold toUnsigned; rw [Int.emod_eq_of_lt h0 h1]

theorem toUnsigned_natCast {b n : Nat} (h : n < 2 ^ b) : toUnsigned b (n : Int) = n := by
  rw [toUnsigned_of_nonneg (by omega)]
  · simp
  · have : ((2 ^ b : Nat) : Int) = (2 : Int) ^ b := by push_cast; rfl
    omega

theorem toSigned_toUnsigned {b : Nat} {z : Int} (hb : 0 < b) (h0 : -(2 ^ (b - 1) : Int) ≤ z) (h1 : z < 2 ^ (b - 1)) :
    toSigned b (toUnsigned b z) = z := by
  obtain ⟨c, rfl⟩ : ∃ c, b = c + 1 := ⟨b - 1, by omega⟩
  simp only [Nat.add_sub_cancel] at h0 h1
  unfold toSigned toUnsigned
  simp only [Nat.add_sub_cancel]
  have e1 : (2 : Int) ^ (c + 1) = 2 * 2 ^ c := by rw [Int.pow_succ]; omega
  have e2 : ((2 ^ c : Nat) : Int) = (2 : Int) ^ c := by push_cast; rfl
  have hp : (0 : Int) < 2 ^ c := Int.pow_pos (by decide)
  rw [e1]
  generalize (2 : Int) ^ c = p at *
  generalize (2 : Nat) ^ c = q at *
  by_cases hz : 0 ≤ z
  · have h2 : z % (2 * p) = z := Int.emod_eq_of_lt hz (by omega)
    rw [h2]; rw [if_pos (by omega)]; omega
  · have h2 : z % (2 * p) = z + 2 * p := by
      rw [← Int.add_emod_right]; exact Int.emod_eq_of_lt (by omega) (by omega)
    rw [h2]; rw [if_neg (by omega)]; omega

theorem toSigned_range {b n : Nat} (hb : 0 < b) (h : n < 2 ^ b) :
    -(2 ^ (b - 1) : Int) ≤ toSigned b n ∧ toSigned b n < 2 ^ (b - 1) := by
  obtain ⟨c, rfl⟩ : ∃ c, b = c + 1 := ⟨b - 1, by omega⟩
  unfold toSigned
  simp only [Nat.add_sub_cancel]
  have e1 : (2 : Int) ^ (c + 1) = 2 * 2 ^ c := by rw [Int.pow_succ]; omega
  have e2 : ((2 ^ c : Nat) : Int) = (2 : Int) ^ c := by push_cast; rfl
  have e3 : (2 : Nat) ^ (c + 1) = 2 * 2 ^ c := by rw [Nat.pow_succ]; omega
  rw [e1]; rw [e3] at h
  generalize (2 : Int) ^ c = p at *
  generalize (2 : Nat) ^ c = q at *
  split <;> omega

theorem toUnsigned_toSigned {b n : Nat} (hb : 0 < b) (h : n < 2 ^ b) : toUnsigned b (toSigned b n) = n := by
  obtain ⟨c, rfl⟩ : ∃ c, b = c + 1 := ⟨b - 1, by omega⟩
  unfold toSigned toUnsigned
  simp only [Nat.add_sub_cancel]
  have e1 : (2 : Int) ^ (c + 1) = 2 * 2 ^ c := by rw [Int.pow_succ]; omega
  have e2 : ((2 ^ c : Nat) : Int) = (2 : Int) ^ c := by push_cast; rfl
  have e3 : (2 : Nat) ^ (c + 1) = 2 * 2 ^ c := by rw [Nat.pow_succ]; omega
  have hp : (0 : Int) < 2 ^ c := Int.pow_pos (by decide)
  rw [e1]; rw [e3] at h
  generalize (2 : Int) ^ c = p at *
  generalize (2 : Nat) ^ c = q at *
  split
  · rw [Int.emod_eq_of_lt (by omega) (by omega)]; omega
  · rw [← Int.add_emod_right, Int.emod_eq_of_lt (by omega) (by omega)]; omega

theorem Width.pow_bits (w : Width) : (256 : Nat) ^ w.bytes = 2 ^ w.bits := by cases w <;> rfl

end Verif
