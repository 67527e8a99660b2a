import Verif.Model.Varint
import Verif.Proofs.Bits
import Verif.Proofs.Compact
/-! Lemmas on varints. -/
set_option linter.unusedSimpArgs false
namespace Verif

theorem leb_lt (bs : Bytes) : Spec.leb bs < 2 ^ (7 * bs.length) := by
  induction bs with
  | nil => simp [Spec.leb]
  | cons b bs ih =>
    simp only [Spec.leb, List.length_cons, Nat.mul_add, Nat.pow_add]
    omega

theorem leb_append (a b : Bytes) : Spec.leb (a ++ b) = Spec.leb a + 2 ^ (7 * a.length) * Spec.leb b := by
  induction a with
  | nil => simp [Spec.leb]
  | cons x a ih =>
    simp only [List.cons_append, Spec.leb, ih, List.length_cons, Nat.mul_add, Nat.pow_add]
    rw [show 2 ^ (7 * a.length) * 2 ^ (7 * 1) * Spec.leb b = 128 * (2 ^ (7 * a.length) * Spec.leb b) by
      rw [Nat.mul_comm (2 ^ (7 * a.length)), Nat.mul_assoc]]
    omega

theorem gt1_iff (b : UInt8) : (b > 1) ↔ 1 < b.toNat := by
  show (1 < b) ↔ _
  rw [UInt8.lt_iff_toNat_lt]; rfl

/-- What the varint loop returns when it succeeds, and that it does succeed on in-range groups. -/
theorem uvarintLoop_spec (buf : Bytes) : ∀ (x i : Nat), x < 2 ^ (7 * i) → i ≤ 10 →
    (((uvarintLoop x i buf).2 ≤ 0 ∧
        ∀ init last tail, buf = init ++ last :: tail → (∀ b ∈ init, 128 ≤ b.toNat) → last.toNat < 128 →
          10 < i + init.length + 1 ∨ 2 ^ 64 ≤ x + 2 ^ (7 * i) * Spec.leb (init ++ [last])) ∨
      ∃ init last tail, buf = init ++ last :: tail ∧ (∀ b ∈ init, 128 ≤ b.toNat) ∧ last.toNat < 128 ∧
        i + init.length + 1 ≤ 10 ∧ x + 2 ^ (7 * i) * Spec.leb (init ++ [last]) < 2 ^ 64 ∧
        uvarintLoop x i buf = (x + 2 ^ (7 * i) * Spec.leb (init ++ [last]), ((i + init.length + 1 : Nat) : Int))) := by
  induction buf with
  | nil =>
    intro x i _ _
    left
    refine ⟨by simp [uvarintLoop], ?_⟩
    intro init last tail h; simp at h
  | cons b rest ih =>
    intro x i hx hi
    have hb := b.toNat_lt
    by_cases h10 : i = 10
    · left
      refine ⟨by simp [uvarintLoop, h10], ?_⟩
      intro init last tail _ _ _; left; omega
    by_cases hlt : b.toNat < 128
    · have hlt' : b < 0x80 := (lt80_iff b).2 hlt
      by_cases h9 : i = 9 ∧ b > 1
      · left
        refine ⟨by simp [uvarintLoop, h10, hlt', h9], ?_⟩
        intro init last tail he hi' hl
        cases init with
        | nil =>
          right
          simp at he
          obtain ⟨rfl, rfl⟩ := he
          obtain ⟨rfl, hg⟩ := h9
          rw [gt1_iff] at hg
          simp only [List.nil_append, Spec.leb, Nat.mod_eq_of_lt hlt]
          have : 2 ^ (7 * 9) * 2 ≤ 2 ^ (7 * 9) * (b.toNat + 128 * 0) := Nat.mul_le_mul_left _ (by omega)
          have e : (2 : Nat) ^ (7 * 9) * 2 = 2 ^ 64 := by decide
          omega
        | cons a init =>
          simp at he
          have := hi' a (by simp)
          rw [← he.1] at this; omega
      · right
        refine ⟨[], b, rest, rfl, by simp, hlt, by simp; omega, ?_, ?_⟩
        · simp only [List.nil_append, Spec.leb, Nat.mod_eq_of_lt hlt]
          by_cases h9' : i = 9
          · subst h9'
            have hb1 : ¬ 1 < b.toNat := fun h => h9 ⟨rfl, (gt1_iff b).2 h⟩
            have : 2 ^ (7 * 9) * (b.toNat + 128 * 0) ≤ 2 ^ (7 * 9) * 1 := Nat.mul_le_mul_left _ (by omega)
            have e : (2 : Nat) ^ (7 * 9) + 2 ^ (7 * 9) * 1 = 2 ^ 64 := by decide
            omega
          · have h1 : 2 ^ (7 * i) * (b.toNat + 128 * 0) ≤ 2 ^ (7 * i) * 127 := Nat.mul_le_mul_left _ (by omega)
            have h2 : (2 : Nat) ^ (7 * i) ≤ 2 ^ (7 * 8) := Nat.pow_le_pow_right (by decide) (by omega)
            have e : (2 : Nat) ^ (7 * 8) * 128 < 2 ^ 64 := by decide
            omega
        · simp only [uvarintLoop, h10, hlt', h9, if_true, if_false, List.nil_append, Spec.leb, Nat.mod_eq_of_lt hlt,
            List.length_nil]
          rw [or_shift hx, Nat.mul_comm]
          simp
    · have hlt' : ¬ b < 0x80 := fun h => hlt ((lt80_iff b).1 h)
      have hstep : uvarintLoop x i (b :: rest) =
          uvarintLoop (x + 2 ^ (7 * i) * (b.toNat % 128)) (i + 1) rest := by
        simp only [uvarintLoop, h10, hlt', if_false, and7f_toNat]
        rw [or_shift hx, Nat.mul_comm (b.toNat % 128)]
      have hx' : x + 2 ^ (7 * i) * (b.toNat % 128) < 2 ^ (7 * (i + 1)) := by
        have h1 : 2 ^ (7 * i) * (b.toNat % 128) ≤ 2 ^ (7 * i) * 127 := Nat.mul_le_mul_left _ (by omega)
        have e : (2 : Nat) ^ (7 * (i + 1)) = 2 ^ (7 * i) * 128 := by rw [Nat.mul_add, Nat.pow_add]
        omega
      have hleb : ∀ init (last : UInt8), x + 2 ^ (7 * i) * (b.toNat % 128) + 2 ^ (7 * (i + 1)) * Spec.leb (init ++ [last]) =
          x + 2 ^ (7 * i) * Spec.leb ((b :: init) ++ [last]) := by
        intro init last
        simp only [List.cons_append, Spec.leb]
        rw [Nat.mul_add (7) i 1, Nat.pow_add, Nat.mul_assoc, Nat.mul_add (2 ^ (7 * i)), show (2 : Nat) ^ (7 * 1) = 128 by decide]
        omega
      rcases ih _ (i + 1) hx' (by omega) with ⟨hn, hall⟩ | ⟨init, last, tail, he, hin, hl, hc, hv, hres⟩
      · left
        refine ⟨by rw [hstep]; exact hn, ?_⟩
        intro init last tail he hin hl
        cases init with
        | nil =>
          simp at he
          obtain ⟨rfl, -⟩ := he
          exact absurd hl hlt
        | cons a init =>
          simp at he
          obtain ⟨rfl, he⟩ := he
          rcases hall init last tail he (fun y hy => hin y (by simp [hy])) hl with h | h
          · left; simp; omega
          · right; rw [hleb] at h; exact h
      · right
        refine ⟨b :: init, last, tail, by simp [he], ?_, hl, by simp; omega, ?_, ?_⟩
        · intro y hy; simp at hy
          rcases hy with rfl | hy
          · omega
          · exact hin y hy
        · rw [← hleb]; exact hv
        · rw [hstep, hres, hleb]; simp; omega

/-- Shape of the bytes `PutUvarint` writes. -/
theorem uvarintBytes_spec (fuel : Nat) : ∀ v, v < 2 ^ (7 * fuel) →
    0 < fuel →
    ∃ init last, uvarintBytes fuel v = init ++ [last] ∧ (∀ b ∈ init, 128 ≤ b.toNat) ∧ last.toNat < 128 ∧
      Spec.leb (init ++ [last]) = v ∧ (init ≠ [] → last ≠ 0) ∧
      (∀ k, init.length + 1 ≤ k + 1 ↔ v < 2 ^ (7 * (k + 1))) := by
  induction fuel with
  | zero => intro v _ h; omega
  | succ f ih =>
    intro v hv _
    unfold uvarintBytes
    by_cases h : v < 128
    · rw [if_pos h]
      refine ⟨[], UInt8.ofNat v, rfl, by simp, by rw [UInt8.toNat_ofNat']; omega, ?_, by simp, ?_⟩
      · simp only [List.nil_append, Spec.leb, UInt8.toNat_ofNat']; omega
      · intro k
        have : 2 ^ (7 * 1) ≤ 2 ^ (7 * (k + 1)) := Nat.pow_le_pow_right (by decide) (by omega)
        simp; omega
    · rw [if_neg h]
      have hf : 0 < f := by
        rcases Nat.eq_zero_or_pos f with rfl | hf
        · simp at hv; omega
        · exact hf
      have hdiv : v / 128 < 2 ^ (7 * f) := by
        rw [Nat.div_lt_iff_lt_mul (by decide)]
        rw [Nat.mul_add, Nat.pow_add] at hv; exact hv
      obtain ⟨init, last, he, hin, hl, hleb, hnz, hlen⟩ := ih (v / 128) hdiv hf
      have hh : (UInt8.ofNat v ||| 0x80).toNat = v % 128 + 128 := by
        rw [UInt8.toNat_or, UInt8.toNat_ofNat', show (0x80 : UInt8).toNat = 128 from rfl]
        have h2 : v % 2 ^ 8 ||| 128 = v % 128 + 128 := by
          have : ∀ n : Fin 256, n.val ||| 128 = n.val % 128 + 128 := by set_option maxRecDepth 10000 in decide
          have := this ⟨v % 2 ^ 8, by omega⟩
          simp only [] at this; rw [this]; omega
        exact h2
      refine ⟨(UInt8.ofNat v ||| 0x80) :: init, last, by rw [he]; rfl, ?_, hl, ?_, ?_, ?_⟩
      · intro y hy; simp at hy
        rcases hy with rfl | hy
        · omega
        · exact hin y hy
      · simp only [List.cons_append, Spec.leb, hleb, hh]; omega
      · intro _ hz
        by_cases hi : init = []
        · subst hi; subst hz
          simp [Spec.leb] at hleb; omega
        · exact hnz hi hz
      · intro k
        cases k with
        | zero => simp; omega
        | succ k =>
          have := hlen k
          simp only [List.length_cons]
          rw [show 7 * (k + 1 + 1) = 7 * (k + 1) + 7 by omega, Nat.pow_add]
          rw [Nat.div_lt_iff_lt_mul (by decide)] at this
          rw [show (2 : Nat) ^ 7 = 128 by decide, ← this]
          omega

theorem putUvarint8_eq (v : Nat) (h : v < 2 ^ 64) :
    putUvarint8 v = if v < 2 ^ 56 then .ok (uvarintBytes 10 v) else .panic := by
  have h2 : (2 : Nat) ^ 64 < 2 ^ (7 * 10) := by decide
  obtain ⟨init, last, he, -, -, -, -, hlen⟩ := uvarintBytes_spec 10 v (by omega) (by decide)
  unfold putUvarint8
  have := hlen 7
  rw [show 7 * (7 + 1) = 56 by decide] at this
  simp only [he, List.length_append, List.length_cons, List.length_nil]
  by_cases hv : v < 2 ^ 56
  · rw [if_pos (by omega), if_pos hv]
  · rw [if_neg (by omega), if_neg hv]

/-- Reading back what `PutUvarint` wrote. -/
theorem goUvarint_uvarintBytes (v : Nat) (h : v < 2 ^ 64) (tail : Bytes) :
    goUvarint (uvarintBytes 10 v ++ tail) = (v, ((uvarintBytes 10 v).length : Int)) := by
  have h2 : (2 : Nat) ^ 64 < 2 ^ (7 * 10) := by decide
  obtain ⟨init, last, he, hin, hl, hleb, -, hlen⟩ := uvarintBytes_spec 10 v (by omega) (by decide)
  have hlen10 := (hlen 9).2 (by omega)
  rw [he]
  unfold goUvarint
  rcases uvarintLoop_spec ((init ++ [last]) ++ tail) 0 0 (by simp) (by omega) with ⟨hn, hall⟩ |
      ⟨init', last', tail', he', hin', hl', -, -, hres⟩
  · rcases hall init last tail (by simp) hin hl with h' | h'
    · omega
    · simp [hleb] at h'; omega
  · have key : ∀ (a b : Bytes) (x y : UInt8) (s t : Bytes), a ++ x :: s = b ++ y :: t →
        (∀ z ∈ a, 128 ≤ z.toNat) → (∀ z ∈ b, 128 ≤ z.toNat) → x.toNat < 128 → y.toNat < 128 → a = b ∧ x = y := by
      intro a
      induction a with
      | nil =>
        intro b x y s t h1 _ hb hx _
        cases b with
        | nil => simp at h1; exact ⟨rfl, h1.1⟩
        | cons c b => simp at h1; have := hb c (by simp); rw [← h1.1] at this; omega
      | cons c a ih =>
        intro b x y s t h1 ha hb hx hy
        cases b with
        | nil => simp at h1; have := ha c (by simp); rw [h1.1] at this; omega
        | cons e b =>
          simp at h1
          have := ih b x y s t h1.2 (fun z hz => ha z (by simp [hz])) (fun z hz => hb z (by simp [hz])) hx hy
          exact ⟨by rw [h1.1, this.1], this.2⟩
    have hk := key init init' last last' tail tail' (by simpa using he') hin hin' hl hl'
    obtain ⟨rfl, rfl⟩ := hk
    rw [hres, Nat.zero_add, hleb]
    simp

theorem zigzag_lt (z : Int) : zigzag z < 2 ^ 64 := by
  unfold zigzag; split <;> omega

theorem zigzag_of_nonneg {z : Int} (h0 : 0 ≤ z) (h1 : z < 2 ^ 63) : zigzag z = 2 * z.toNat := by
  unfold zigzag
  rw [if_neg (by omega), toUnsigned_of_nonneg h0 (by omega)]
  omega

theorem zigzag_of_neg {z : Int} (h0 : z < 0) (h1 : -2 ^ 63 ≤ z) : zigzag z = 2 * (-z - 1).toNat + 1 := by
  unfold zigzag
  rw [if_pos h0]
  have : toUnsigned 64 z = (z + 2 ^ 64).toNat := by
    unfold toUnsigned
    rw [← Int.add_emod_right, Int.emod_eq_of_lt (by omega) (by omega)]
  rw [this]; omega

theorem unzigzag_zigzag {z : Int} (h0 : -2 ^ 63 ≤ z) (h1 : z < 2 ^ 63) : unzigzag (zigzag z) = z := by
  unfold unzigzag
  by_cases h : 0 ≤ z
  · rw [zigzag_of_nonneg h h1]
    have : toSigned 64 (2 * z.toNat / 2) = z := by
      unfold toSigned
      rw [if_pos (by omega)]; omega
    simp only [this]; rw [if_neg (by omega)]
  · rw [zigzag_of_neg (by omega) h0]
    have : toSigned 64 ((2 * (-z - 1).toNat + 1) / 2) = -z - 1 := by
      unfold toSigned
      rw [if_pos (by omega)]; omega
    simp only [this]; rw [if_pos (by omega)]; omega

end Verif
