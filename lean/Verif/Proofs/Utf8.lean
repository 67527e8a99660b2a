import Verif.Model.Utf8
import Verif.Spec.Utf8
/-! The model's UTF-8 scanner against the specification. -/
namespace Verif
open Verif.Spec

theorem inRange_iff (b lo hi : UInt8) : inRange b lo hi = true ↔ lo.toNat ≤ b.toNat ∧ b.toNat ≤ hi.toNat := by
  simp [inRange, UInt8.le_iff_toNat_le]

theorem byte_eq {b : UInt8} {n : Nat} (h : n = b.toNat) : b = UInt8.ofNat n := by
  rw [h]; simp

theorem u8nat (n : Nat) (h : n < 256) : (UInt8.ofNat n).toNat = n := by
  simp [Nat.mod_eq_of_lt h]

theorem utf8_ne_nil (r : Nat) : utf8 r ≠ [] := by
  unfold utf8; repeat' split
  all_goals simp

/-- A recognised sequence encodes a scalar value. -/
theorem runeWidth_sound {s : Bytes} {w : Nat} (h : runeWidth s = some w) :
    ∃ r, Scalar r ∧ s.take w = utf8 r ∧ w = (utf8 r).length := by
  cases s with
  | nil => simp [runeWidth] at h
  | cons b0 rest =>
    unfold runeWidth at h
    simp only at h
    have l0 := b0.toNat_lt
    split at h
    · rename_i h0
      have h0 : b0.toNat < 128 := by simpa [UInt8.lt_iff_toNat_lt] using h0
      cases h
      refine ⟨b0.toNat, ⟨by omega, by omega⟩, ?_, ?_⟩ <;> simp [utf8, h0]
    rename_i h0
    split at h
    · rename_i h1
      rw [inRange_iff] at h1
      have h1a : 0xC2 ≤ b0.toNat := h1.1
      have h1b : b0.toNat ≤ 0xDF := h1.2
      cases rest with
      | nil => simp at h
      | cons b1 rest =>
        simp only at h
        split at h
        · rename_i h2
          rw [inRange_iff] at h2
          have h2a : 0x80 ≤ b1.toNat := h2.1
          have h2b : b1.toNat ≤ 0xBF := h2.2
          cases h
          refine ⟨(b0.toNat - 0xC0) * 0x40 + (b1.toNat - 0x80), ⟨by omega, by omega⟩, ?_, ?_⟩
          · have e0 := byte_eq (b := b0) (n := 0xC0 + ((b0.toNat - 0xC0) * 0x40 + (b1.toNat - 0x80)) / 0x40) (by omega)
            have e1 := byte_eq (b := b1) (n := 0x80 + ((b0.toNat - 0xC0) * 0x40 + (b1.toNat - 0x80)) % 0x40) (by omega)
            rw [utf8, if_neg (by omega), if_pos (by omega), ← e0, ← e1]; rfl
          · rw [utf8, if_neg (by omega), if_pos (by omega)]; rfl
        · cases h
    rename_i h1
    split at h
    · rename_i h3
      rw [inRange_iff] at h3
      have h3a : 0xE0 ≤ b0.toNat := h3.1
      have h3b : b0.toNat ≤ 0xEF := h3.2
      match rest, h with
      | b1 :: b2 :: rest, h =>
        simp only at h
        rw [Option.ite_none_right_eq_some] at h
        obtain ⟨h2, h⟩ := h
        rw [Bool.and_eq_true, inRange_iff, inRange_iff] at h2
        have h2a : 0x80 ≤ b1.toNat ∧ b1.toNat ≤ 0xBF ∧ (b0.toNat = 0xE0 → 0xA0 ≤ b1.toNat) ∧
            (b0.toNat = 0xED → b1.toNat ≤ 0x9F) := by
          have g1 : (if b0 = 0xE0 then (0xA0 : UInt8) else 0x80).toNat = if b0.toNat = 0xE0 then 0xA0 else 0x80 := by
            by_cases hb : b0 = 0xE0
            · subst hb; decide
            · have : b0.toNat ≠ 0xE0 := fun x => hb (UInt8.toNat_inj.mp x)
              rw [if_neg hb, if_neg this]; rfl
          have g2 : (if b0 = 0xED then (0x9F : UInt8) else 0xBF).toNat = if b0.toNat = 0xED then 0x9F else 0xBF := by
            by_cases hb : b0 = 0xED
            · subst hb; decide
            · have : b0.toNat ≠ 0xED := fun x => hb (UInt8.toNat_inj.mp x)
              rw [if_neg hb, if_neg this]; rfl
          have := h2.1
          rw [g1, g2] at this
          obtain ⟨x, y⟩ := this
          split at x <;> split at y <;> omega
        have h2c : 0x80 ≤ b2.toNat := h2.2.1
        have h2d : b2.toNat ≤ 0xBF := h2.2.2
        cases h
        generalize hr : (b0.toNat - 0xE0) * 0x1000 + (b1.toNat - 0x80) * 0x40 + (b2.toNat - 0x80) = r
        have e0 := byte_eq (b := b0) (n := 0xE0 + r / 0x1000) (by omega)
        have e1 := byte_eq (b := b1) (n := 0x80 + r / 0x40 % 0x40) (by omega)
        have e2 := byte_eq (b := b2) (n := 0x80 + r % 0x40) (by omega)
        refine ⟨r, ⟨by omega, by omega⟩, ?_, ?_⟩
        · rw [utf8, if_neg (by omega), if_neg (by omega), if_pos (by omega), ← e0, ← e1, ← e2]; rfl
        · rw [utf8, if_neg (by omega), if_neg (by omega), if_pos (by omega)]; rfl
      | [], h => cases h
      | [_], h => cases h
    rename_i h3
    split at h
    · rename_i h4
      rw [inRange_iff] at h4
      have h4a : 0xF0 ≤ b0.toNat := h4.1
      have h4b : b0.toNat ≤ 0xF4 := h4.2
      match rest, h with
      | b1 :: b2 :: b3 :: rest, h =>
        simp only at h
        rw [Option.ite_none_right_eq_some] at h
        obtain ⟨h2, h⟩ := h
        rw [Bool.and_eq_true, Bool.and_eq_true, inRange_iff, inRange_iff, inRange_iff] at h2
        have h2a : 0x80 ≤ b1.toNat ∧ b1.toNat ≤ 0xBF ∧ (b0.toNat = 0xF0 → 0x90 ≤ b1.toNat) ∧
            (b0.toNat = 0xF4 → b1.toNat ≤ 0x8F) := by
          have g1 : (if b0 = 0xF0 then (0x90 : UInt8) else 0x80).toNat = if b0.toNat = 0xF0 then 0x90 else 0x80 := by
            by_cases hb : b0 = 0xF0
            · subst hb; decide
            · have : b0.toNat ≠ 0xF0 := fun x => hb (UInt8.toNat_inj.mp x)
              rw [if_neg hb, if_neg this]; rfl
          have g2 : (if b0 = 0xF4 then (0x8F : UInt8) else 0xBF).toNat = if b0.toNat = 0xF4 then 0x8F else 0xBF := by
            by_cases hb : b0 = 0xF4
            · subst hb; decide
            · have : b0.toNat ≠ 0xF4 := fun x => hb (UInt8.toNat_inj.mp x)
              rw [if_neg hb, if_neg this]; rfl
          have := h2.1.1
          rw [g1, g2] at this
          obtain ⟨x, y⟩ := this
          split at x <;> split at y <;> omega
        have h2c : 0x80 ≤ b2.toNat := h2.1.2.1
        have h2d : b2.toNat ≤ 0xBF := h2.1.2.2
        have h2e : 0x80 ≤ b3.toNat := h2.2.1
        have h2f : b3.toNat ≤ 0xBF := h2.2.2
        cases h
        generalize hr : (b0.toNat - 0xF0) * 0x40000 + (b1.toNat - 0x80) * 0x1000 + (b2.toNat - 0x80) * 0x40 +
          (b3.toNat - 0x80) = r
        have e0 := byte_eq (b := b0) (n := 0xF0 + r / 0x40000) (by omega)
        have e1 := byte_eq (b := b1) (n := 0x80 + r / 0x1000 % 0x40) (by omega)
        have e2 := byte_eq (b := b2) (n := 0x80 + r / 0x40 % 0x40) (by omega)
        have e3 := byte_eq (b := b3) (n := 0x80 + r % 0x40) (by omega)
        refine ⟨r, ⟨by omega, by omega⟩, ?_, ?_⟩
        · rw [utf8, if_neg (by omega), if_neg (by omega), if_neg (by omega), ← e0, ← e1, ← e2, ← e3]; rfl
        · rw [utf8, if_neg (by omega), if_neg (by omega), if_neg (by omega)]; rfl
      | [], h => cases h
      | [_], h => cases h
      | [_, _], h => cases h
    · cases h

/-- The encoding of a scalar value is recognised, whatever follows. -/
theorem runeWidth_complete {r : Nat} (h : Scalar r) (rest : Bytes) :
    runeWidth (utf8 r ++ rest) = some (utf8 r).length := by
  obtain ⟨hr, hs⟩ := h
  have lt_iff : ∀ n, n < 256 → ((UInt8.ofNat n < 0x80) ↔ n < 0x80) := by
    intro n hn
    rw [UInt8.lt_iff_toNat_lt, u8nat n hn]; exact Iff.rfl
  have rng : ∀ n (lo hi : UInt8), n < 256 → lo.toNat ≤ n → n ≤ hi.toNat → inRange (UInt8.ofNat n) lo hi = true := by
    intro n lo hi hn h1 h2
    rw [inRange_iff, u8nat n hn]; exact ⟨h1, h2⟩
  have nrng : ∀ n (lo hi : UInt8), n < 256 → (n < lo.toNat ∨ hi.toNat < n) → inRange (UInt8.ofNat n) lo hi = false := by
    intro n lo hi hn h
    rw [← Bool.not_eq_true, inRange_iff, u8nat n hn]; omega
  have eq_iff : ∀ n (k : UInt8), n < 256 → ((UInt8.ofNat n = k) ↔ n = k.toNat) := by
    intro n k hn
    rw [← UInt8.toNat_inj, u8nat n hn]
  unfold utf8
  split
  · rename_i h0
    show runeWidth (UInt8.ofNat r :: rest) = some 1
    unfold runeWidth
    simp only
    rw [if_pos ((lt_iff _ (by omega)).mpr h0)]
  rename_i h0
  split
  · rename_i h1
    show runeWidth (UInt8.ofNat (0xC0 + r / 0x40) :: UInt8.ofNat (0x80 + r % 0x40) :: rest) = some 2
    unfold runeWidth
    simp only
    rw [if_neg (fun x => by have := (lt_iff _ (by omega)).mp x; omega),
      if_pos (rng _ _ _ (by omega) (show 0xC2 ≤ _ by omega) (show _ ≤ 0xDF by omega)),
      if_pos (rng _ _ _ (by omega) (show 0x80 ≤ _ by omega) (show _ ≤ 0xBF by omega))]
  rename_i h1
  split
  · rename_i h2
    show runeWidth (UInt8.ofNat (0xE0 + r / 0x1000) :: UInt8.ofNat (0x80 + r / 0x40 % 0x40) ::
      UInt8.ofNat (0x80 + r % 0x40) :: rest) = some 3
    unfold runeWidth
    simp only
    rw [if_neg (fun x => by have := (lt_iff _ (by omega)).mp x; omega),
      if_neg (fun x => by rw [nrng _ _ _ (by omega) (Or.inr (show 0xDF < _ by omega))] at x; cases x),
      if_pos (rng _ _ _ (by omega) (show 0xE0 ≤ _ by omega) (show _ ≤ 0xEF by omega)), if_pos]
    rw [Bool.and_eq_true]
    refine ⟨rng _ _ _ (by omega) ?_ ?_, rng _ _ _ (by omega) (show 0x80 ≤ _ by omega) (show _ ≤ 0xBF by omega)⟩
    · split
      · rename_i he
        have he : 0xE0 + r / 0x1000 = 0xE0 := (eq_iff _ _ (by omega)).mp he
        show 0xA0 ≤ _; omega
      · show 0x80 ≤ _; omega
    · split
      · rename_i he
        have he : 0xE0 + r / 0x1000 = 0xED := (eq_iff _ _ (by omega)).mp he
        show _ ≤ 0x9F; omega
      · show _ ≤ 0xBF; omega
  · rename_i h2
    show runeWidth (UInt8.ofNat (0xF0 + r / 0x40000) :: UInt8.ofNat (0x80 + r / 0x1000 % 0x40) ::
      UInt8.ofNat (0x80 + r / 0x40 % 0x40) :: UInt8.ofNat (0x80 + r % 0x40) :: rest) = some 4
    unfold runeWidth
    simp only
    rw [if_neg (fun x => by have := (lt_iff _ (by omega)).mp x; omega),
      if_neg (fun x => by rw [nrng _ _ _ (by omega) (Or.inr (show 0xDF < _ by omega))] at x; cases x),
      if_neg (fun x => by rw [nrng _ _ _ (by omega) (Or.inr (show 0xEF < _ by omega))] at x; cases x),
      if_pos (rng _ _ _ (by omega) (show 0xF0 ≤ _ by omega) (show _ ≤ 0xF4 by omega)), if_pos]
    rw [Bool.and_eq_true, Bool.and_eq_true]
    refine ⟨⟨rng _ _ _ (by omega) ?_ ?_, rng _ _ _ (by omega) (show 0x80 ≤ _ by omega) (show _ ≤ 0xBF by omega)⟩,
      rng _ _ _ (by omega) (show 0x80 ≤ _ by omega) (show _ ≤ 0xBF by omega)⟩
    · split
      · rename_i he
        have he : 0xF0 + r / 0x40000 = 0xF0 := (eq_iff _ _ (by omega)).mp he
        show 0x90 ≤ _; omega
      · show 0x80 ≤ _; omega
    · split
      · rename_i he
        have he : 0xF0 + r / 0x40000 = 0xF4 := (eq_iff _ _ (by omega)).mp he
        show _ ≤ 0x8F; omega
      · show _ ≤ 0xBF; omega

/-- No scalar value's encoding starts where the scanner sees none. -/
theorem runeWidth_none {s : Bytes} (h : runeWidth s = none) (r : Nat) (hr : Scalar r) : ¬ utf8 r <+: s := by
  rintro ⟨t, rfl⟩
  rw [runeWidth_complete hr] at h
  cases h

theorem replacement_eq : replacement = utf8 0xFFFD := by decide +kernel

theorem fixUtf8Aux_nil (k : Nat) : fixUtf8Aux k [] = [] := by cases k <;> rfl

theorem fixUtf8Aux_repaired (k : Nat) (s : Bytes) (h : s.length ≤ k) : Repaired s (fixUtf8Aux k s) := by
  induction k generalizing s with
  | zero =>
    cases s with
    | nil => exact .nil
    | cons b s => simp at h
  | succ k ih =>
    cases s with
    | nil => exact .nil
    | cons b s =>
      simp only [List.length_cons] at h
      unfold fixUtf8Aux
      split
      · rename_i w hw
        obtain ⟨r, hr, ht, hwl⟩ := runeWidth_sound hw
        have hp : 0 < w := by rw [hwl]; exact List.length_pos_iff.mpr (utf8_ne_nil r)
        have hs : b :: s = utf8 r ++ (b :: s).drop w := by rw [← ht, List.take_append_drop]
        have := Repaired.keep r _ _ hr (ih ((b :: s).drop w) (by simp only [List.length_drop, List.length_cons]; omega))
        rw [← hs] at this
        rw [ht]; exact this
      · rename_i hw
        rw [replacement_eq]
        exact .replace b s _ (fun r hr => runeWidth_none hw r hr) (ih s (by omega))

theorem fixUtf8_repaired (s : Bytes) : Repaired s (fixUtf8 s) := fixUtf8Aux_repaired _ _ (Nat.le_refl _)

theorem utf8_append_inj {r r' : Nat} (hr : Scalar r) (hr' : Scalar r') {s s' : Bytes}
    (h : utf8 r ++ s = utf8 r' ++ s') : utf8 r = utf8 r' ∧ s = s' := by
  have h1 := runeWidth_complete hr s
  rw [h, runeWidth_complete hr' s'] at h1
  have hl : (utf8 r').length = (utf8 r).length := by simpa using h1
  exact List.append_inj h hl.symm

/-- The repair is determined. -/
theorem Spec.Repaired.unique {s t t' : Bytes} (h : Repaired s t) (h' : Repaired s t') : t = t' := by
  induction h generalizing t' with
  | nil =>
    generalize hs : ([] : Bytes) = s at h'
    cases h' with
    | nil => rfl
    | keep r s t hr h => exact absurd (List.append_eq_nil_iff.mp hs.symm).1 (utf8_ne_nil r)
    | replace b s t hb h => cases hs
  | keep r s t hr h ih =>
    generalize hs : utf8 r ++ s = u at h'
    cases h' with
    | nil => exact absurd (List.append_eq_nil_iff.mp hs).1 (utf8_ne_nil r)
    | keep r' s' t' hr' h' =>
      obtain ⟨e1, e2⟩ := utf8_append_inj hr hr' hs
      subst e2
      rw [e1, ih h']
    | replace b s' t' hb h' => exact absurd ⟨s, hs⟩ (hb r hr)
  | replace b s t hb h ih =>
    generalize hs : b :: s = u at h'
    cases h' with
    | nil => cases hs
    | keep r' s' t' hr' h' => exact absurd ⟨s', hs.symm⟩ (hb r' hr')
    | replace b' s' t' hb' h' =>
      cases hs
      rw [ih h']

theorem repaired_flatMap (rs : List Nat) (h : ∀ r ∈ rs, Scalar r) : Repaired (rs.flatMap utf8) (rs.flatMap utf8) := by
  induction rs with
  | nil => exact .nil
  | cons r rs ih =>
    simp only [List.flatMap_cons]
    exact .keep r _ _ (h r (by simp)) (ih fun x hx => h x (by simp [hx]))

theorem scalar_replacement : Scalar 0xFFFD := ⟨by omega, by omega⟩

theorem Spec.Repaired.utf8 {s t : Bytes} (h : Repaired s t) : Utf8 t := by
  induction h with
  | nil => exact ⟨[], by simp, rfl⟩
  | keep r s t hr h ih =>
    obtain ⟨rs, h1, h2⟩ := ih
    exact ⟨r :: rs, by simpa using ⟨hr, h1⟩, by rw [h2]; rfl⟩
  | replace b s t hb h ih =>
    obtain ⟨rs, h1, h2⟩ := ih
    exact ⟨0xFFFD :: rs, by simpa using ⟨scalar_replacement, h1⟩, by rw [h2]; rfl⟩

/-- The repair changes nothing exactly on valid UTF-8. -/
theorem fixUtf8_eq_self (s : Bytes) : fixUtf8 s = s ↔ Utf8 s := by
  constructor
  · intro h
    have := (fixUtf8_repaired s).utf8
    rwa [h] at this
  · rintro ⟨rs, h, rfl⟩
    exact (fixUtf8_repaired _).unique (repaired_flatMap rs h)

end Verif
