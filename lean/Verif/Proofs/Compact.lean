import Verif.Model.Compact
import Verif.Spec.Numbers
/-! Lemmas on compact-u16. -/
set_option linter.unusedSimpArgs false
namespace Verif

theorem u8_forall {p : UInt8 → Prop} (h : ∀ n : Fin 256, p (UInt8.ofNat n)) (b : UInt8) : p b := by
  have := h ⟨b.toNat, b.toNat_lt⟩
  simpa using this

theorem and80_eq_zero (b : UInt8) : (b &&& 0x80 = 0) ↔ b.toNat < 128 := by
  revert b; apply u8_forall; set_option maxRecDepth 10000 in decide
theorem lt80_iff (b : UInt8) : (b < 0x80) ↔ b.toNat < 128 := by
  rw [UInt8.lt_iff_toNat_lt]; rfl
theorem and7f_toNat (b : UInt8) : (b &&& 0x7f).toNat = b.toNat % 128 := by
  rw [UInt8.toNat_and]
  exact Nat.and_two_pow_sub_one_eq_mod b.toNat 7
theorem u8_eq_zero_iff (b : UInt8) : b = 0 ↔ b.toNat = 0 := by
  rw [← UInt8.toNat_inj]; rfl

theorem or_shift {a b k : Nat} (h : a < 2 ^ k) : a ||| (b <<< k) = a + b * 2 ^ k := by
  have := Nat.two_pow_add_eq_or_of_lt h b
  rw [Nat.or_comm, Nat.shiftLeft_eq, Nat.mul_comm, ← this, Nat.add_comm]

theorem and7f_ofNat (n : Nat) : UInt8.ofNat n &&& 0x7f = UInt8.ofNat (n % 128) := by
  apply UInt8.toNat_inj.mp
  rw [and7f_toNat, UInt8.toNat_ofNat', UInt8.toNat_ofNat']; omega

theorem or80_toNat (b : UInt8) (h : b.toNat < 128) : (b ||| 0x80).toNat = b.toNat + 128 := by
  have := Nat.two_pow_add_eq_or_of_lt (i := 7) (b := b.toNat) h 1
  rw [UInt8.toNat_or, show (0x80 : UInt8).toNat = 2 ^ 7 * 1 from rfl, Nat.or_comm, ← this]; omega

theorem or80_ofNat (n : Nat) (h : n < 128) : UInt8.ofNat n ||| 0x80 = UInt8.ofNat (n + 128) := by
  apply UInt8.toNat_inj.mp
  rw [or80_toNat _ (by rw [UInt8.toNat_ofNat']; omega), UInt8.toNat_ofNat', UInt8.toNat_ofNat']; omega

theorem encodeCompactLoop_eq (n : Nat) (h : n ≤ 65535) : encodeCompactLoop 3 n = Spec.compact n := by
  simp only [encodeCompactLoop, Spec.compact, and7f_ofNat]
  by_cases h1 : n < 128
  · rw [if_pos (by omega), if_pos h1, Nat.mod_eq_of_lt h1]
  · rw [if_neg (by omega), if_neg h1, or80_ofNat _ (by omega)]
    by_cases h2 : n < 16384
    · rw [if_pos (by omega), if_pos h2, Nat.mod_eq_of_lt (show n / 128 < 128 by omega)]
    · rw [if_neg (by omega), if_neg h2, or80_ofNat _ (by omega), if_pos (by omega)]
      have : n / 128 / 128 = n / 16384 := by omega
      rw [this, Nat.mod_eq_of_lt (show n / 16384 < 128 by omega)]

/-- Closed form of the decoder on a byte string. -/
theorem decodeCompactU16_ok_iff (b : Bytes) (n k : Nat) :
    decodeCompactU16 b = .ok (n, k) ↔ n ≤ 65535 ∧ k = (Spec.compact n).length ∧ ∃ t, b = Spec.compact n ++ t := by
  have e0 : ∀ x : UInt8, UInt8.ofNat x.toNat = x := by intro x; simp
  constructor
  · intro h
    unfold decodeCompactU16 at h
    match b with
    | [] => simp [decodeCompactLoop] at h
    | b0 :: t =>
      simp only [decodeCompactLoop, and80_eq_zero, and7f_toNat] at h
      have hb0 := b0.toNat_lt
      by_cases h0 : b0.toNat < 128
      · simp [h0, Nat.mod_eq_of_lt h0, show ¬ 65535 < b0.toNat by omega] at h
        obtain ⟨rfl, rfl⟩ := h
        refine ⟨by omega, by simp [Spec.compact, h0], t, ?_⟩
        simp [Spec.compact, h0]
      · simp [h0] at h
        match t with
        | [] => simp at h
        | b1 :: t =>
          have hb1 := b1.toNat_lt
          simp only [] at h
          by_cases hz : b1 = 0
          · simp [hz] at h
          · have hz' : b1.toNat ≠ 0 := fun h => hz ((u8_eq_zero_iff _).2 h)
            simp [hz] at h
            by_cases h1 : b1.toNat < 128
            · simp only [h1, if_true] at h
              rw [or_shift (k := 7) (by omega)] at h
              simp [show ¬ 65535 < b0.toNat % 128 + b1.toNat % 128 * 128 by omega] at h
              obtain ⟨rfl, rfl⟩ := h
              have a1 : ¬ (b0.toNat % 128 + b1.toNat % 128 * 128 < 128) := by omega
              have a2 : (b0.toNat % 128 + b1.toNat % 128 * 128 < 16384) := by omega
              refine ⟨by omega, by simp [Spec.compact, a1, a2], t, ?_⟩
              simp only [Spec.compact, a1, a2, if_true, if_false]
              have c1 : (b0.toNat % 128 + b1.toNat % 128 * 128) % 128 + 128 = b0.toNat := by omega
              have c2 : (b0.toNat % 128 + b1.toNat % 128 * 128) / 128 = b1.toNat := by omega
              rw [c1, c2, e0, e0]; rfl
            · simp only [h1, if_false] at h
              match t with
              | [] => simp at h
              | b2 :: t =>
                have hb2 := b2.toNat_lt
                simp only [] at h
                by_cases hz2 : b2 = 0
                · simp [hz2] at h
                · have hz2' : b2.toNat ≠ 0 := fun h => hz2 ((u8_eq_zero_iff _).2 h)
                  by_cases h2 : b2.toNat < 128
                  · simp [hz2, and80_eq_zero, h2] at h
                    rw [or_shift (k := 7) (by omega), or_shift (k := 14) (by omega)] at h
                    by_cases hr : 65535 < b0.toNat % 128 + b1.toNat % 128 * 2 ^ 7 + b2.toNat % 128 * 2 ^ 14
                    · simp at hr; simp [hr] at h
                    · simp only [Nat.reducePow] at hr
                      simp [hr] at h
                      obtain ⟨rfl, rfl⟩ := h
                      have a1 : ¬ (b0.toNat % 128 + b1.toNat % 128 * 128 + b2.toNat % 128 * 16384 < 128) := by omega
                      have a2 : ¬ (b0.toNat % 128 + b1.toNat % 128 * 128 + b2.toNat % 128 * 16384 < 16384) := by omega
                      refine ⟨by omega, by simp [Spec.compact, a1, a2], t, ?_⟩
                      simp only [Spec.compact, a1, a2, if_false]
                      have c1 : (b0.toNat % 128 + b1.toNat % 128 * 128 + b2.toNat % 128 * 16384) % 128 + 128 = b0.toNat := by omega
                      have c2 : (b0.toNat % 128 + b1.toNat % 128 * 128 + b2.toNat % 128 * 16384) / 128 % 128 + 128 = b1.toNat := by omega
                      have c3 : (b0.toNat % 128 + b1.toNat % 128 * 128 + b2.toNat % 128 * 16384) / 16384 = b2.toNat := by omega
                      rw [c1, c2, c3, e0, e0, e0]; rfl
                  · simp [hz2, and80_eq_zero, h2] at h
  · rintro ⟨hn, rfl, t, rfl⟩
    have nz : ∀ m, m < 256 → m ≠ 0 → ¬ UInt8.ofNat m = 0 := fun m hm h0 h => by
      rw [u8_eq_zero_iff, UInt8.toNat_ofNat'] at h; omega
    have tn : ∀ m, m < 256 → (UInt8.ofNat m).toNat = m := fun m hm => by rw [UInt8.toNat_ofNat']; omega
    unfold decodeCompactU16
    by_cases h1 : n < 128
    · have := tn n (by omega)
      simp only [Spec.compact, h1, if_true, decodeCompactLoop, and80_eq_zero, and7f_toNat, List.cons_append, tn n (by omega),
        Nat.mod_eq_of_lt h1]
      simp [show ¬ 65535 < n by omega]
    · by_cases h2 : n < 16384
      · simp only [Spec.compact, h1, h2, if_true, if_false, decodeCompactLoop, and80_eq_zero, and7f_toNat,
          List.cons_append, List.nil_append, tn (n % 128 + 128) (by omega), tn (n / 128) (by omega)]
        have g1 : ¬ (n % 128 + 128 < 128) := by omega
        have g2 : n / 128 < 128 := by omega
        have g3 := nz (n / 128) (by omega) (by omega)
        have g4 : (n % 128 + 128) % 128 = n % 128 := by omega
        simp only [g1, g2, g3, if_false, if_true, ne_eq, not_true_eq_false, and_false, false_and, g4,
          show ¬ ((0 : Nat) + 1 = 2) by decide, show ¬ ((0 : Nat) = 2) by decide, Nat.zero_mul, Nat.zero_or, Nat.shiftLeft_zero,
          Nat.zero_add, Nat.one_mul, Nat.mod_eq_of_lt g2]
        rw [or_shift (k := 7) (by omega)]
        have g5 : n % 128 + n / 128 * 2 ^ 7 = n := by omega
        rw [g5]; simp [show ¬ 65535 < n by omega]
      · simp only [Spec.compact, h1, h2, if_false, decodeCompactLoop, and80_eq_zero, and7f_toNat,
          List.cons_append, List.nil_append, tn (n % 128 + 128) (by omega), tn (n / 128 % 128 + 128) (by omega),
          tn (n / 16384) (by omega)]
        have g1 : ¬ (n % 128 + 128 < 128) := by omega
        have g2 : ¬ (n / 128 % 128 + 128 < 128) := by omega
        have g3 := nz (n / 128 % 128 + 128) (by omega) (by omega)
        have g4 : (n % 128 + 128) % 128 = n % 128 := by omega
        have g6 := nz (n / 16384) (by omega) (by omega)
        have g7 : n / 16384 < 128 := by omega
        have g8 : (n / 128 % 128 + 128) % 128 = n / 128 % 128 := by omega
        simp only [g1, g2, g3, g6, g7, g8, if_false, if_true, ne_eq, not_true_eq_false, and_false, false_and, g4,
          show ¬ ((0 : Nat) + 1 = 2) by decide, show ¬ ((0 : Nat) = 2) by decide, Nat.zero_mul, Nat.zero_or, Nat.shiftLeft_zero,
          Nat.zero_add, Nat.one_mul, Nat.mod_eq_of_lt g7]
        rw [or_shift (k := 7) (by omega), or_shift (k := (1 + 1) * 7) (by simp only [Nat.reducePow, Nat.reduceAdd, Nat.reduceMul]; omega)]
        have g5 : n % 128 + n / 128 % 128 * 2 ^ 7 + n / 16384 * 2 ^ ((1 + 1) * 7) = n := by
          simp only [Nat.reducePow, Nat.reduceAdd, Nat.reduceMul]; omega
        rw [g5]; simp [and80_eq_zero, tn (n / 16384) (by omega), g7, show ¬ 65535 < n by omega]

theorem Spec.compact_length (n : Nat) : (Spec.compact n).length = if n < 128 then 1 else if n < 16384 then 2 else 3 := by
  unfold Spec.compact; split
  · rfl
  · split <;> rfl

theorem decodeCompactU16_ne_panic (b : Bytes) : decodeCompactU16 b ≠ .panic := by
  have loop : ∀ fuel ln nth b, decodeCompactLoop ln nth fuel b ≠ .panic := by
    intro fuel
    induction fuel with
    | zero => intros; simp [decodeCompactLoop]
    | succ f ih =>
      intro ln nth b
      cases b with
      | nil => simp [decodeCompactLoop]
      | cons b t =>
        simp only [decodeCompactLoop]
        repeat' split
        all_goals first | exact ih _ _ _ | simp
  unfold decodeCompactU16
  have := loop 3 0 0 b
  cases h : decodeCompactLoop 0 0 3 b with
  | ok p => simp only []; repeat' split <;> simp
  | err e => simp
  | panic => exact absurd h this

theorem encodeCompactU16Length_eq (buf : Bytes) (ln : Int) :
    encodeCompactU16Length buf ln =
      if 0 ≤ ln ∧ ln ≤ 65535 then (.ok (), buf ++ Spec.compact ln.toNat) else (.err .lenRange, buf) := by
  unfold encodeCompactU16Length
  by_cases h : 0 ≤ ln ∧ ln ≤ 65535
  · rw [if_neg (by omega), if_pos h, encodeCompactLoop_eq _ (by omega)]
  · rw [if_pos (by omega), if_neg h]

end Verif
