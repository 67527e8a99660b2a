import Verif.Proofs.FloatText
/-! From the text of a number to the double it is read as. -/
namespace Verif.Props
open Verif.Spec

theorem more_lt {base n n' : Nat} {u : Bytes} (hb : 0 < base) (h : MoreDigits base n u n') : n' < (n + 1) * base ^ u.length := by
  induction h with
  | done n => simp
  | @digit n m v b s hd _ ih =>
    have hv := hd.1
    have h1 : (n * base + v + 1) * base ^ s.length ≤ (n + 1) * base * base ^ s.length := by
      apply Nat.mul_le_mul_right
      rw [Nat.add_mul, Nat.one_mul]; omega
    rw [List.length_cons, Nat.pow_succ, Nat.mul_comm (base ^ _), ← Nat.mul_assoc]
    omega
  | @underscore n m v b s hd _ ih =>
    have hv := hd.1
    have h1 : (n * base + v + 1) * base ^ s.length ≤ (n + 1) * base * base ^ s.length := by
      apply Nat.mul_le_mul_right
      rw [Nat.add_mul, Nat.one_mul]; omega
    have h2 : (n + 1) * base * base ^ s.length ≤ (n + 1) * base * base ^ (s.length + 1) :=
      Nat.mul_le_mul_left _ (Nat.pow_le_pow_right hb (Nat.le_succ _))
    rw [List.length_cons, List.length_cons, Nat.pow_succ base (s.length + 1), Nat.mul_comm (base ^ _), ← Nat.mul_assoc]
    omega

theorem numeral_lt {base n : Nat} {u : Bytes} (hb : 0 < base) (h : Numeral base u n) : n < base ^ u.length := by
  obtain ⟨b, v, t, rfl, hd, hm⟩ := h
  have := more_lt hb hm
  have h1 : (v + 1) * base ^ t.length ≤ base * base ^ t.length := Nat.mul_le_mul_right _ hd.1
  rw [List.length_cons, Nat.pow_succ, Nat.mul_comm]
  omega

theorem mantissa_lt {base m f : Nat} {s : Bytes} (hb : 0 < base) (h : Mantissa base s m f) : m < base ^ s.length := by
  cases h with
  | whole h => exact numeral_lt hb h
  | @dot s n h =>
    refine Nat.lt_of_lt_of_le (numeral_lt hb h) (Nat.pow_le_pow_right hb (by simp))
  | @fraction s t n k h h' =>
    have h2 := more_lt hb (numeral_more h' n)
    have h1 := numeral_lt hb h
    have h3 : (n + 1) * base ^ t.length ≤ base ^ s.length * base ^ t.length := Nat.mul_le_mul_right _ h1
    rw [← Nat.pow_add] at h3
    refine Nat.lt_of_lt_of_le (Nat.lt_of_lt_of_le h2 h3) (Nat.pow_le_pow_right hb (by simp))
  | @point t k h =>
    refine Nat.lt_of_lt_of_le (numeral_lt hb h) (Nat.pow_le_pow_right hb (by simp))

theorem floatText_lt {s : Bytes} {m b : Nat} {z : Int} (h : FloatText s m b z) : (b = 10 ∨ b = 2) ∧ m < 16 ^ s.length := by
  have up : ∀ {a n : Nat}, m < 10 ^ a → a ≤ n → m < 16 ^ n := fun h1 h2 =>
    Nat.lt_of_lt_of_le h1 (Nat.le_trans (Nat.pow_le_pow_left (by decide) _) (Nat.pow_le_pow_right (by decide) h2))
  have up' : ∀ {a n : Nat}, m < 16 ^ a → a ≤ n → m < 16 ^ n := fun h1 h2 =>
    Nat.lt_of_lt_of_le h1 (Nat.pow_le_pow_right (by decide) h2)
  cases h with
  | decimal h => exact ⟨.inl rfl, up (mantissa_lt (by decide) h) (Nat.le_refl _)⟩
  | decimalExp h _ => exact ⟨.inl rfl, up (mantissa_lt (by decide) h) (by simp)⟩
  | hex _ h _ => exact ⟨.inr rfl, up' (mantissa_lt (by decide) h) (by simp; omega)⟩
  | hex_ _ h _ _ => exact ⟨.inr rfl, up' (mantissa_lt (by decide) h) (by simp; omega)⟩

theorem pow_two_le {b : Nat} (hb : b = 10 ∨ b = 2) (n : Nat) : 2 ^ n ≤ b ^ n := Nat.pow_le_pow_left (by omega) n

theorem floatOf_iff {m b : Nat} (hb : b = 10 ∨ b = 2) (z : Int) (x : Nat) : floatOf m b z = some x ↔ NearestPow m b z x :=
  roundFloat_iff _ _ _ (Nat.pow_pos (by omega))

/-- What is less than half of the smallest double is 0. -/
theorem nearest_tiny {p q : Nat} (h : p * 2 ^ 1075 < q) : Nearest p q 0 := by
  have e : (2 : Nat) ^ 1075 = 2 * 2 ^ 1074 := by decide +kernel
  have hone : (1 : Nat) ≤ 2 ^ 1024 - 2 ^ 970 := by decide +kernel
  have hpos : (1 : Nat) ≤ 2 ^ 1074 := Nat.one_le_two_pow
  have hsc : scaled 0 = 0 := by decide
  have lt_of : ∀ {p q T A : Nat}, p * (2 * T) < q → 1 ≤ T → 1 ≤ A → p < A * q := by
    intro p q T A h hT hA
    have h1 : p * 1 ≤ p * (2 * T) := Nat.mul_le_mul_left _ (by omega)
    have h2 : 1 * q ≤ A * q := Nat.mul_le_mul_right _ hA
    omega
  rw [e] at h
  have hd0 : distTo p q 0 = p * 2 ^ 1074 := by
    unfold distTo dist; rw [hsc]; simp
  have hdc : ∀ c, 0 < c → p * 2 ^ 1074 < distTo p q c := by
    intro c hc
    have h1 := scaled_mono hc
    rw [hsc] at h1
    have h2 : 1 * q ≤ scaled c * q := Nat.mul_le_mul_right _ h1
    unfold distTo dist
    rw [Nat.mul_left_comm] at h
    generalize p * 2 ^ 1074 = a at *
    omega
  refine ⟨lt_of h hpos hone, by decide, ?_, ?_⟩
  · intro c _
    rcases Nat.eq_zero_or_pos c with rfl | hc
    · exact Nat.le_refl _
    · rw [hd0]; exact Nat.le_of_lt (hdc c hc)
  · intro c _ _ _; decide

theorem floatOf_zero {b : Nat} (hb : b = 10 ∨ b = 2) (z : Int) : floatOf 0 b z = some 0 := by
  refine (floatOf_iff hb z 0).2 ?_
  unfold NearestPow
  rw [Nat.zero_mul]
  refine nearest_tiny ?_
  rw [Nat.zero_mul]
  exact Nat.pow_pos (by omega)

theorem floatOf_huge {m b : Nat} (hb : b = 10 ∨ b = 2) {z : Int} (hm : 0 < m) (hz : 2000 ≤ z) : floatOf m b z = none := by
  cases h : floatOf m b z with
  | none => rfl
  | some x =>
    have hs := ((floatOf_iff hb z x).1 h).small
    have h0 : (-z).toNat = 0 := by omega
    rw [h0, Nat.pow_zero, Nat.mul_one] at hs
    have h1 : (2 : Nat) ^ 1024 ≤ m * b ^ z.toNat := by
      refine Nat.le_trans (Nat.pow_le_pow_right (by decide) (by omega : 1024 ≤ z.toNat)) ?_
      refine Nat.le_trans (pow_two_le hb _) ?_
      exact Nat.le_mul_of_pos_left _ hm
    have h2 := Nat.sub_le (2 ^ 1024) (2 ^ 970)
    exact absurd (Nat.lt_of_lt_of_le hs (Nat.le_trans h2 h1)) (Nat.lt_irrefl _)

theorem floatOf_tiny {m b : Nat} (hb : b = 10 ∨ b = 2) {z : Int} (hm : m < 2 ^ 8000) (hz : z ≤ -10000) : floatOf m b z = some 0 := by
  refine (floatOf_iff hb z 0).2 (nearest_tiny ?_)
  have h0 : z.toNat = 0 := by omega
  rw [h0, Nat.pow_zero, Nat.mul_one]
  have key : ∀ {m A B Q : Nat}, m < A → 0 < B → A * B ≤ Q → m * B < Q := fun h1 h2 h3 =>
    Nat.lt_of_lt_of_le ((Nat.mul_lt_mul_right h2).2 h1) h3
  refine key hm (Nat.two_pow_pos _) ?_
  rw [← Nat.pow_add]
  exact Nat.le_trans (Nat.pow_le_pow_right (by decide) (by omega)) (pow_two_le hb _)

theorem clip_eq {s : Bytes} (hs : Moderate s) {m b : Nat} {z e z' : Int} (h : FloatText s m b z') (hc : Clip s z e) :
    floatOf m b e = floatOf m b z := by
  obtain ⟨hb, hm⟩ := floatText_lt h
  cases hc with
  | same => rfl
  | @exp f u t z e hs' ht hf hcl =>
    obtain ⟨n, k, ⟨h1, h2⟩, hze⟩ := hcl
    by_cases hn : n < 100000
    · have := h1 hn
      subst this
      rcases hze with ⟨rfl, rfl⟩ | ⟨rfl, rfl⟩ <;> rfl
    · have hk := h2 (by omega)
      rcases hs with hs | hs
      · have hm' : m < 2 ^ 8000 := by
          refine Nat.lt_of_lt_of_le hm ?_
          rw [show (16 : Nat) = 2 ^ 4 from rfl, ← Nat.pow_mul]
          exact Nat.pow_le_pow_right (by decide) (by omega)
        rcases hze with ⟨rfl, rfl⟩ | ⟨rfl, rfl⟩
        · rcases Nat.eq_zero_or_pos m with rfl | hpos
          · rw [floatOf_zero hb, floatOf_zero hb]
          · rw [floatOf_huge hb hpos (by omega), floatOf_huge hb hpos (by omega)]
        · rw [floatOf_tiny hb hm' (by omega), floatOf_tiny hb hm' (by omega)]
      · have := hs u t z hs' ht
        omega

theorem floatText_head {s : Bytes} {m b : Nat} {z : Int} (h : FloatText s m b z) :
    ∃ x r, s = x :: r ∧ (x = 46 ∨ ∃ v, DigitIn 10 x v) := by
  cases h with
  | decimal h => exact mantissa_ne h
  | decimalExp h _ => obtain ⟨x, r, rfl, hx⟩ := mantissa_ne h; exact ⟨x, _, rfl, hx⟩
  | hex => exact ⟨48, _, rfl, .inr ⟨0, by unfold DigitIn; simp⟩⟩
  | hex_ => exact ⟨48, _, rfl, .inr ⟨0, by unfold DigitIn; simp⟩⟩

theorem lower_fun : lowerAscii = fun b => if 65 ≤ b.toNat ∧ b.toNat ≤ 90 then b + 32 else b := by
  funext b
  unfold lowerAscii
  simp only [UInt8.le_iff_toNat_le]
  rfl

theorem isInf_iff (s : Bytes) : isInf s = true ↔ InfText s := by
  unfold isInf InfText
  rw [lower_fun]
  simp

theorem nan_iff (s : Bytes) : s.map lowerAscii = [110, 97, 110] ↔ NaNText s := by
  unfold NaNText
  rw [lower_fun]

/-- The first byte of a number is changed by no change of case, and is no letter or sign. -/
theorem number_head {x : UInt8} (h : x = 46 ∨ ∃ v, DigitIn 10 x v) :
    lowerAscii x ≠ 105 ∧ lowerAscii x ≠ 110 ∧ x ≠ 43 ∧ x ≠ 45 := by
  have hx : x.toNat = 46 ∨ 48 ≤ x.toNat ∧ x.toNat ≤ 57 := by
    rcases h with rfl | ⟨v, h⟩
    · exact .inl rfl
    · unfold DigitIn at h; omega
  have hl : lowerAscii x = x := by
    rw [lower_fun]; simp only; rw [if_neg (by omega)]
  rw [hl]
  refine ⟨?_, ?_, ?_, ?_⟩ <;> rintro rfl <;> simp at hx

theorem parseUnsigned_iff {s : Bytes} (hs : Moderate s) (x : Nat) : parseUnsignedFloat s = some x ↔
    InfText s ∧ x = infBits ∨ ∃ m b z, FloatText s m b z ∧ NearestPow m b z x := by
  unfold parseUnsignedFloat
  by_cases hi : isInf s = true
  · rw [if_pos hi]
    constructor
    · rintro h
      cases h
      exact .inl ⟨(isInf_iff s).1 hi, rfl⟩
    · rintro (⟨-, rfl⟩ | ⟨m, b, z, hf, -⟩)
      · rfl
      · exfalso
        obtain ⟨y, r, rfl, hy⟩ := floatText_head hf
        unfold isInf at hi
        simp [(number_head hy).1] at hi
  · rw [if_neg hi]
    constructor
    · intro h
      right
      split at h
      · rename_i m b e hr
        obtain ⟨z, hz, hc⟩ := floatText_of hr
        refine ⟨m, b, z, hz, ?_⟩
        rw [clip_eq hs hz hc] at h
        exact (floatOf_iff (floatText_lt hz).1 z x).1 h
      · simp at h
    · rintro (⟨h, -⟩ | ⟨m, b, z, hf, hn⟩)
      · exact absurd ((isInf_iff s).2 h) hi
      · obtain ⟨e, he, hc⟩ := readFloat_of hf
        rw [he]
        simp only
        rw [clip_eq hs hf hc]
        exact (floatOf_iff (floatText_lt hf).1 z x).2 hn

theorem moderate_cons {c : UInt8} {s : Bytes} (h : Moderate (c :: s)) : Moderate s := by
  rcases h with h | h
  · left; simp at h; omega
  · right
    intro u t z hs ht
    exact h (c :: u) t z (by rw [hs]; rfl) ht

theorem parseFloat_iff {s : Bytes} (hs : Moderate s) (x : Nat) : parseFloat s = .ok x ↔ DoubleText s x := by
  have inf_head : ∀ {s : Bytes}, InfText s → ∃ y r, s = y :: r ∧ lowerAscii y = 105 := by
    intro s h
    have h := (isInf_iff s).2 h
    unfold isInf at h
    cases s with
    | nil => simp at h
    | cons y r =>
      refine ⟨y, r, rfl, ?_⟩
      simp at h
      rcases h with h | h <;> exact h.1
  have i_head : ∀ {y : UInt8}, lowerAscii y = 105 → lowerAscii y ≠ 110 ∧ y ≠ 43 ∧ y ≠ 45 := by
    intro y hy
    refine ⟨by rw [hy]; decide, ?_, ?_⟩ <;> rintro rfl <;> exact absurd hy (by decide)
  have unsigned : ∀ {y : UInt8} {r : Bytes}, lowerAscii y ≠ 110 ∧ y ≠ 43 ∧ y ≠ 45 → parseUnsignedFloat (y :: r) = some x →
      parseFloat (y :: r) = .ok x := by
    intro y r hy h
    unfold parseFloat
    rw [if_neg (by simp [hy.1])]
    split
    · rename_i heq; cases heq; exact absurd rfl hy.2.2
    · rename_i heq; cases heq; exact absurd rfl hy.2.1
    · rw [h]
  constructor
  · intro h
    unfold parseFloat at h
    split at h
    · rename_i hn
      cases h
      exact .nan ((nan_iff s).1 hn)
    · split at h
      · rename_i r
        split at h
        · rename_i y hy
          cases h
          rcases (parseUnsigned_iff (moderate_cons hs) y).1 hy with ⟨h, rfl⟩ | ⟨m, b, z, hf, hn⟩
          · exact .minusInf h
          · exact .minus hf hn
        · simp at h
      · rename_i r
        split at h
        · rename_i y hy
          cases h
          rcases (parseUnsigned_iff (moderate_cons hs) _).1 hy with ⟨h, rfl⟩ | ⟨m, b, z, hf, hn⟩
          · exact .plusInf h
          · exact .plus hf hn
        · simp at h
      · split at h
        · rename_i y hy
          cases h
          rcases (parseUnsigned_iff hs _).1 hy with ⟨h, rfl⟩ | ⟨m, b, z, hf, hn⟩
          · exact .inf h
          · exact .number hf hn
        · simp at h
  · intro h
    cases h with
    | nan h => unfold parseFloat; rw [if_pos ((nan_iff s).2 h)]; rfl
    | inf h =>
      obtain ⟨y, r, rfl, hy⟩ := inf_head h
      exact unsigned (i_head hy) ((parseUnsigned_iff hs _).2 (.inl ⟨h, rfl⟩))
    | @plusInf s h =>
      unfold parseFloat
      rw [if_neg (by simp [lowerAscii])]
      simp only
      rw [(parseUnsigned_iff (moderate_cons hs) _).2 (.inl ⟨h, rfl⟩)]
    | @minusInf s h =>
      unfold parseFloat
      rw [if_neg (by simp [lowerAscii])]
      simp only
      rw [(parseUnsigned_iff (moderate_cons hs) _).2 (.inl ⟨h, rfl⟩)]
    | number hf hn =>
      obtain ⟨y, r, rfl, hy⟩ := floatText_head hf
      exact unsigned (number_head hy).2 ((parseUnsigned_iff hs _).2 (.inr ⟨_, _, _, hf, hn⟩))
    | @plus s m b z x hf hn =>
      unfold parseFloat
      rw [if_neg (by simp [lowerAscii])]
      simp only
      rw [(parseUnsigned_iff (moderate_cons hs) _).2 (.inr ⟨_, _, _, hf, hn⟩)]
    | @minus s m b z x hf hn =>
      unfold parseFloat
      rw [if_neg (by simp [lowerAscii])]
      simp only
      rw [(parseUnsigned_iff (moderate_cons hs) _).2 (.inr ⟨_, _, _, hf, hn⟩)]

theorem parseFloat_ne_panic (s : Bytes) : parseFloat s ≠ .panic := by
  unfold parseFloat
  split
  · simp
  · split <;> split <;> simp

end Verif.Props
