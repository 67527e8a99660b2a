import Verif.Model.Float
import Verif.Spec.Double
/-! `roundFloat` gives the nearest double. -/
namespace Verif.Props
open Verif.Spec

theorem scaled_form {k m : Nat} (hm : m ≤ 2 ^ 53) (hk : 0 < k → 2 ^ 52 ≤ m) : scaled (k * 2 ^ 52 + m) = m * 2 ^ k := by
  unfold scaled
  rcases Nat.lt_or_ge m (2 ^ 52) with h | h
  · have : k = 0 := by
      rcases Nat.eq_zero_or_pos k with h0 | h0
      · exact h0
      · have := hk h0; omega
    subst this
    rw [Nat.zero_mul, Nat.zero_add, if_pos (Nat.div_eq_of_lt h)]
    simp
  · rcases Nat.lt_or_ge m (2 ^ 53) with h' | h'
    · have h1 : (k * 2 ^ 52 + m) / 2 ^ 52 = k + 1 := by omega
      have h2 : (k * 2 ^ 52 + m) % 2 ^ 52 = m - 2 ^ 52 := by omega
      rw [h1, h2, if_neg (by omega)]
      rw [show 2 ^ 52 + (m - 2 ^ 52) = m by omega, show k + 1 - 1 = k by omega]
    · have h1 : (k * 2 ^ 52 + m) / 2 ^ 52 = k + 2 := by omega
      have h2 : (k * 2 ^ 52 + m) % 2 ^ 52 = 0 := by omega
      rw [h1, h2, if_neg (by omega), show k + 2 - 1 = k + 1 by omega,
        show 2 ^ (k + 1) = 2 * 2 ^ k by rw [Nat.pow_succ, Nat.mul_comm]]
      have : m = 2 ^ 53 := by omega
      subst this
      rw [Nat.add_zero, ← Nat.mul_assoc]

/-- Every pattern is an exponent and a mantissa. -/
theorem scaled_cases (c : Nat) : ∃ k m, m < 2 ^ 53 ∧ scaled c = m * 2 ^ k := by
  unfold scaled
  by_cases h : c / 2 ^ 52 = 0
  · rw [if_pos h]; exact ⟨0, c, by omega, by simp⟩
  · rw [if_neg h]; exact ⟨_, _, by omega, rfl⟩

theorem scaled_succ (b : Nat) : scaled b < scaled (b + 1) := by
  unfold scaled
  by_cases h : b / 2 ^ 52 = 0
  · rw [if_pos h]
    by_cases h' : (b + 1) / 2 ^ 52 = 0
    · rw [if_pos h']; omega
    · rw [if_neg h']
      have h1 : (b + 1) / 2 ^ 52 = 1 := by omega
      rw [h1]
      simp only [Nat.sub_self, Nat.pow_zero, Nat.mul_one]
      omega
  · rw [if_neg h]
    by_cases h' : (b + 1) / 2 ^ 52 = b / 2 ^ 52
    · rw [h', if_neg h]
      exact Nat.mul_lt_mul_of_pos_right (by omega) (Nat.two_pow_pos _)
    · have h1 : (b + 1) / 2 ^ 52 = b / 2 ^ 52 + 1 := by omega
      rw [h1, if_neg (by omega)]
      obtain ⟨e, he⟩ : ∃ e, b / 2 ^ 52 = e + 1 := ⟨b / 2 ^ 52 - 1, by omega⟩
      rw [he, show e + 1 - 1 = e by omega, show e + 1 + 1 - 1 = e + 1 by omega,
        show 2 ^ (e + 1) = 2 * 2 ^ e by rw [Nat.pow_succ, Nat.mul_comm], ← Nat.mul_assoc]
      exact Nat.mul_lt_mul_of_pos_right (by omega) (Nat.two_pow_pos _)

theorem scaled_mono {b c : Nat} (h : b < c) : scaled b < scaled c := by
  induction c with
  | zero => omega
  | succ c ih =>
    rcases Nat.lt_or_ge b c with h' | h'
    · exact Nat.lt_trans (ih h') (scaled_succ c)
    · have : b = c := by omega
      subst this
      exact scaled_succ b

theorem scaled_inj {b c : Nat} (h : scaled b = scaled c) : b = c := by
  rcases Nat.lt_trichotomy b c with h' | h' | h'
  · have := scaled_mono h'; omega
  · exact h'
  · have := scaled_mono h'; omega

/-- At most one double is nearest. -/
theorem nearest_unique {p q b c : Nat} (hb : Nearest p q b) (hc : Nearest p q c) : b = c := by
  suffices H : ∀ {b c : Nat}, Nearest p q b → Nearest p q c → ¬ b < c by
    rcases Nat.lt_trichotomy b c with h | h | h
    · exact absurd h (H hb hc)
    · exact h
    · exact absurd h (H hc hb)
  intro b c hb hc hlt
  have hq : 0 < q := by
    rcases Nat.eq_zero_or_pos q with h | h
    · have := hb.small; rw [h] at this; omega
    · exact h
  have e1 := hb.closest c hc.finite
  have e2 := hc.closest b hb.finite
  have b1 := hb.even c hc.finite (by omega) (by omega)
  have c1 := hc.even b hb.finite (by omega) (by omega)
  have hm : b + 1 < c := by omega
  have e3 := hb.closest (b + 1) (Nat.lt_trans hm hc.finite)
  have l1 := Nat.mul_lt_mul_of_pos_right (scaled_mono (Nat.lt_succ_self b)) hq
  have l2 := Nat.mul_lt_mul_of_pos_right (scaled_mono hm) hq
  simp only [distTo, dist] at e1 e2 e3
  generalize p * 2 ^ 1074 = n at *
  simp only [Nat.succ_eq_add_one] at l1
  omega

/-- The quantities of `roundFloat`. -/
structure Rounding (n q k m r : Nat) : Prop where
  hq : 0 < q
  heq : n = m * (q * 2 ^ k) + r
  hr : r < q * 2 ^ k
  hhi : m < 2 ^ 53
  hlo : 0 < k → 2 ^ 52 ≤ m

theorem rounding (n q k : Nat) (hq : 0 < q) (hk : k = (n / q).log2 - 52) :
    Rounding n q k (n / (q * 2 ^ k)) (n % (q * 2 ^ k)) := by
  have hd : 0 < q * 2 ^ k := Nat.mul_pos hq (Nat.two_pow_pos _)
  have hx : n / (q * 2 ^ k) = n / q / 2 ^ k := by rw [Nat.div_div_eq_div_mul]
  refine ⟨hq, (by rw [Nat.mul_comm]; exact (Nat.div_add_mod n _).symm), Nat.mod_lt _ hd, ?_, ?_⟩
  · rw [hx, Nat.div_lt_iff_lt_mul (Nat.two_pow_pos _), ← Nat.pow_add]
    refine Nat.lt_of_lt_of_le (Nat.lt_log2_self (n := n / q)) (Nat.pow_le_pow_right (by decide) ?_)
    omega
  · intro hk0
    rw [hx, Nat.le_div_iff_mul_le (Nat.two_pow_pos _), ← Nat.pow_add]
    have h0 : n / q ≠ 0 := by
      intro h0
      have : k = 0 := by rw [hk, h0]; decide
      omega
    rw [show 52 + k = (n / q).log2 by omega]
    exact Nat.log2_self_le h0

/-- No double lies between two neighbours. -/
theorem Rounding.gap {n q k m r : Nat} (h : Rounding n q k m r) (c : Nat) :
    scaled c * q ≤ m * (q * 2 ^ k) ∨ (m + 1) * (q * 2 ^ k) ≤ scaled c * q := by
  suffices hs : scaled c ≤ m * 2 ^ k ∨ (m + 1) * 2 ^ k ≤ scaled c by
    have e : ∀ x, x * (q * 2 ^ k) = x * 2 ^ k * q := fun x => by rw [Nat.mul_comm q, Nat.mul_assoc]
    rw [e, e]
    exact hs.imp (Nat.mul_le_mul_right q) (Nat.mul_le_mul_right q)
  obtain ⟨k', m', hm', hs⟩ := scaled_cases c
  rw [hs]
  rcases Nat.lt_or_ge k' k with hk | hk
  · left
    have h1 : m' * 2 ^ k' ≤ 2 ^ 53 * 2 ^ k' := Nat.mul_le_mul_right _ (by omega)
    have h2 : 2 ^ 53 * 2 ^ k' ≤ 2 ^ 52 * 2 ^ k := by
      rw [← Nat.pow_add, ← Nat.pow_add]; exact Nat.pow_le_pow_right (by decide) (by omega)
    have h3 : 2 ^ 52 * 2 ^ k ≤ m * 2 ^ k := Nat.mul_le_mul_right _ (h.hlo (by omega))
    omega
  · obtain ⟨j, rfl⟩ : ∃ j, k' = j + k := ⟨k' - k, by omega⟩
    rw [Nat.pow_add, ← Nat.mul_assoc]
    rcases Nat.lt_or_ge m (m' * 2 ^ j) with h1 | h1
    · right; exact Nat.mul_le_mul_right _ h1
    · left; exact Nat.mul_le_mul_right _ h1

theorem lt_scale (a b c : Nat) (hc : 0 < c) : a < b ↔ a * c < b * c := (Nat.mul_lt_mul_right hc).symm

theorem rescale (a b c d q : Nat) (h : a * b = c * d) : a * (q * b) = c * q * d := by
  rw [Nat.mul_left_comm, h, Nat.mul_left_comm, Nat.mul_assoc]

/-- Whether the rounded number is finite. -/
theorem Rounding.finite {p q k m r : Nat} (h : Rounding (p * 2 ^ 1074) q k m r) :
    k * 2 ^ 52 + (if 2 * r > q * 2 ^ k ∨ 2 * r = q * 2 ^ k ∧ m % 2 = 1 then m + 1 else m) < infBits ↔
      p < (2 ^ 1024 - 2 ^ 970) * q := by
  have hL : p < (2 ^ 1024 - 2 ^ 970) * q ↔ p * 2 ^ 1074 < (2 ^ 54 - 1) * (q * 2 ^ 2044) := by
    have e := rescale (2 ^ 54 - 1) (2 ^ 2044) (2 ^ 1024 - 2 ^ 970) (2 ^ 1074) q (by decide +kernel)
    rw [e]
    exact lt_scale _ _ _ (Nat.two_pow_pos _)
  rw [hL, h.heq]
  have hi := h.hhi
  have hr := h.hr
  have hlo := h.hlo
  have hI : infBits = 2047 * 2 ^ 52 := by decide
  rw [hI]
  clear hL
  have hq := h.hq
  clear h
  rcases Nat.lt_trichotomy k 2045 with hk | hk | hk
  · constructor
    · intro _
      have h1 : q * 2 ^ k ≤ q * 2 ^ 2044 := Nat.mul_le_mul_left _ (Nat.pow_le_pow_right (by decide) (by omega))
      have h2 : 0 < q * 2 ^ k := by omega
      have h3 : m * (q * 2 ^ k) ≤ (2 ^ 53 - 1) * (q * 2 ^ k) := Nat.mul_le_mul_right _ (by omega)
      generalize q * 2 ^ k = d at *
      generalize q * 2 ^ 2044 = e at *
      omega
    · intro _
      have : k * 2 ^ 52 ≤ 2044 * 2 ^ 52 := Nat.mul_le_mul_right _ (by omega)
      split <;> omega
  · subst hk
    have h2 : q * 2 ^ 2045 = 2 * (q * 2 ^ 2044) := by
      rw [show (2 : Nat) ^ 2045 = 2 * 2 ^ 2044 by rw [show 2045 = 2044 + 1 from rfl, Nat.pow_succ, Nat.mul_comm], Nat.mul_left_comm]
    rw [h2] at hr ⊢
    have hm := hlo (by decide)
    have hP : 0 < q * 2 ^ 2044 := Nat.mul_pos hq (Nat.two_pow_pos _)
    generalize q * 2 ^ 2044 = e at *
    rcases Nat.lt_or_ge m (2 ^ 53 - 1) with h3 | h3
    · have h4 : m * (2 * e) ≤ (2 ^ 53 - 2) * (2 * e) := Nat.mul_le_mul_right _ (by omega)
      constructor
      · intro _; omega
      · intro _; split <;> omega
    · have h5 : m = 2 ^ 53 - 1 := by omega
      subst h5
      split <;> omega
  · have h1 : 4 * (q * 2 ^ 2044) ≤ q * 2 ^ k := by
      rw [Nat.mul_left_comm, show 4 * 2 ^ 2044 = (2 : Nat) ^ 2046 by
        rw [show 2046 = 2 + 2044 from rfl, Nat.pow_add]]
      exact Nat.mul_le_mul_left _ (Nat.pow_le_pow_right (by decide) (by omega))
    have hm := hlo (by omega)
    have h3 : 2 ^ 52 * (q * 2 ^ k) ≤ m * (q * 2 ^ k) := Nat.mul_le_mul_right _ hm
    have hP : 0 < q * 2 ^ 2044 := Nat.mul_pos hq (Nat.two_pow_pos _)
    have h4 : 2046 * 2 ^ 52 ≤ k * 2 ^ 52 := Nat.mul_le_mul_right _ (by omega)
    generalize q * 2 ^ 2044 = e at *
    generalize q * 2 ^ k = d at *
    constructor
    · intro h; split at h <;> omega
    · intro h; omega

/-- `roundFloat` returns the nearest double if there is one. -/
theorem roundFloat_iff (p q b : Nat) (hq : 0 < q) : roundFloat p q = some b ↔ Nearest p q b := by
  have h := rounding (p * 2 ^ 1074) q _ hq rfl
  have hI : (0x7FF : Nat) * 2 ^ 52 = infBits := by decide
  unfold roundFloat
  rw [hI]
  simp only [] at h ⊢
  generalize (p * 2 ^ 1074 / q).log2 - 52 = k at *
  generalize p * 2 ^ 1074 / (q * 2 ^ k) = m at *
  generalize p * 2 ^ 1074 % (q * 2 ^ k) = r at *
  have hfin := h.finite
  have key : p < (2 ^ 1024 - 2 ^ 970) * q →
      Nearest p q (k * 2 ^ 52 + (if 2 * r > q * 2 ^ k ∨ 2 * r = q * 2 ^ k ∧ m % 2 = 1 then m + 1 else m)) := by
    intro hs
    have hb := hfin.2 hs
    have e : ∀ x, x * (q * 2 ^ k) = x * 2 ^ k * q := fun x => by rw [Nat.mul_comm q, Nat.mul_assoc]
    have hgap := h.gap
    have heq := h.heq
    have hr := h.hr
    have hlo := h.hlo
    have hhi := h.hhi
    have hinj : ∀ {b c : Nat}, scaled c * q = scaled b * q → c = b := fun hh =>
      scaled_inj (Nat.eq_of_mul_eq_mul_right hq hh)
    by_cases hup : 2 * r > q * 2 ^ k ∨ 2 * r = q * 2 ^ k ∧ m % 2 = 1
    · rw [if_pos hup] at hb ⊢
      have hs' : scaled (k * 2 ^ 52 + (m + 1)) * q = (m + 1) * (q * 2 ^ k) := by
        rw [scaled_form (by omega) (fun hk => by have := hlo hk; omega), e]
      refine ⟨hs, hb, fun c _ => ?_, fun c _ hne hd => ?_⟩
      · have := hgap c
        simp only [distTo, dist, hs', heq]
        rw [Nat.add_mul, Nat.one_mul] at *
        generalize m * (q * 2 ^ k) = M at *
        generalize q * 2 ^ k = D at *
        omega
      · have := hgap c
        have hni : scaled c * q ≠ (m + 1) * (q * 2 ^ k) := fun hh => hne (hinj (hh.trans hs'.symm))
        simp only [distTo, dist, hs', heq] at hd
        have : m % 2 = 1 := by
          rw [Nat.add_mul, Nat.one_mul] at *
          generalize m * (q * 2 ^ k) = M at *
          generalize q * 2 ^ k = D at *
          omega
        omega
    · rw [if_neg hup] at hb ⊢
      have hs' : scaled (k * 2 ^ 52 + m) * q = m * (q * 2 ^ k) := by
        rw [scaled_form (by omega) (fun hk => by have := hlo hk; omega), e]
      refine ⟨hs, hb, fun c _ => ?_, fun c _ hne hd => ?_⟩
      · have := hgap c
        simp only [distTo, dist, hs', heq]
        rw [Nat.add_mul, Nat.one_mul] at *
        generalize m * (q * 2 ^ k) = M at *
        generalize q * 2 ^ k = D at *
        omega
      · have := hgap c
        have hni : scaled c * q ≠ m * (q * 2 ^ k) := fun hh => hne (hinj (hh.trans hs'.symm))
        simp only [distTo, dist, hs', heq] at hd
        have : m % 2 = 0 := by
          rw [Nat.add_mul, Nat.one_mul] at *
          generalize m * (q * 2 ^ k) = M at *
          generalize q * 2 ^ k = D at *
          omega
        omega
  constructor
  · intro hh
    by_cases hb : k * 2 ^ 52 + (if 2 * r > q * 2 ^ k ∨ 2 * r = q * 2 ^ k ∧ m % 2 = 1 then m + 1 else m) < infBits
    · rw [if_pos hb, Option.some.injEq] at hh
      rw [← hh]
      exact key (hfin.1 hb)
    · rw [if_neg hb] at hh; cases hh
  · intro hn
    have := key hn.small
    rw [if_pos this.finite, nearest_unique hn this]

/-- Every number in range has a nearest double. -/
theorem nearest_exists {p q : Nat} (hq : 0 < q) (h : p < (2 ^ 1024 - 2 ^ 970) * q) : ∃ b, Nearest p q b := by
  have hf := (rounding (p * 2 ^ 1074) q _ hq rfl).finite.2 h
  have hI : (0x7FF : Nat) * 2 ^ 52 = infBits := by decide
  have : ∃ b, roundFloat p q = some b := by
    unfold roundFloat
    rw [hI]
    exact ⟨_, if_pos hf⟩
  obtain ⟨b, hb⟩ := this
  exact ⟨b, (roundFloat_iff p q b hq).1 hb⟩

end Verif.Props
