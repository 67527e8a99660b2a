import Verif.Spec.GoInteger
import Verif.Proofs.JsonString
/-! `bigSetString` accepts exactly the Go integer texts. -/
set_option linter.unusedSimpArgs false
namespace Verif.Props
open Spec

theorem scanDigit_iff (base : Nat) (b : UInt8) (v : Nat) : (scanDigit b = some v ∧ v < base) ↔ DigitIn base b v := by
  unfold scanDigit DigitIn isDigit
  simp only [Bool.and_eq_true, decide_eq_true_eq, UInt8.le_iff_toNat_le]
  have h1 : (48 : UInt8).toNat = 48 := rfl
  have h2 : (57 : UInt8).toNat = 57 := rfl
  have h3 : (97 : UInt8).toNat = 97 := rfl
  have h4 : (122 : UInt8).toNat = 122 := rfl
  have h5 : (65 : UInt8).toNat = 65 := rfl
  have h6 : (90 : UInt8).toNat = 90 := rfl
  rw [h1, h2, h3, h4, h5, h6]
  repeat' split
  all_goals simp only [Option.some.injEq, reduceCtorEq, false_and, false_iff]
  all_goals omega

theorem digit_not_underscore {base v : Nat} : ¬ DigitIn base 95 v := by
  rintro ⟨-, h⟩
  have : (95 : UInt8).toNat = 95 := rfl
  omega

theorem scanDigits_cons {base v : Nat} {b : UInt8} (h : DigitIn base b v) (ad : Bool) (count acc : Nat) (s : Bytes) :
    scanDigits base ad count acc (b :: s) = scanDigits base true (count + 1) (acc * base + v) s := by
  have hb : b ≠ 95 := by rintro rfl; exact digit_not_underscore h
  obtain ⟨h1, h2⟩ := (scanDigit_iff _ _ _).2 h
  rw [scanDigits, if_neg hb, h1]
  simp only [if_pos h2]

theorem scanDigits_none {base : Nat} {b : UInt8} (hb : b ≠ 95) (h : ∀ v, ¬ DigitIn base b v) (ad : Bool) (count acc : Nat)
    (s : Bytes) : scanDigits base ad count acc (b :: s) = none := by
  rw [scanDigits, if_neg hb]
  split
  · rename_i v hv
    rw [if_neg]
    intro hlt
    exact h v ((scanDigit_iff _ _ _).1 ⟨hv, hlt⟩)
  · rfl

theorem scanDigits_false {base : Nat} (count acc : Nat) (s : Bytes) (n : Nat) :
    scanDigits base false count acc s = some n ↔
      ∃ b v t, s = b :: t ∧ DigitIn base b v ∧ scanDigits base true (count + 1) (acc * base + v) t = some n := by
  cases s with
  | nil => simp [scanDigits]
  | cons b t =>
    by_cases hd : ∃ v, DigitIn base b v
    · obtain ⟨v, hv⟩ := hd
      rw [scanDigits_cons hv]
      constructor
      · intro h; exact ⟨b, v, t, rfl, hv, h⟩
      · rintro ⟨_, v', _, h, hv', h'⟩
        cases h
        have := ((scanDigit_iff _ _ _).2 hv).1
        rw [((scanDigit_iff _ _ _).2 hv').1] at this
        cases this
        exact h'
    · constructor
      · intro h
        by_cases hb : b = 95
        · subst hb; simp [scanDigits] at h
        · rw [scanDigits_none hb (fun v hv => hd ⟨v, hv⟩)] at h; cases h
      · rintro ⟨_, v', _, h, hv', h'⟩
        cases h
        exact absurd ⟨v', hv'⟩ hd

theorem scanDigits_true {base : Nat} : (s : Bytes) → (count acc n : Nat) →
    (scanDigits base true (count + 1) acc s = some n ↔ MoreDigits base acc s n)
  | [], count, acc, n => by
    simp only [scanDigits]
    constructor
    · intro h
      rw [if_pos ⟨trivial, by omega⟩] at h
      cases h; exact .done _
    · intro h; cases h; exact if_pos ⟨trivial, by omega⟩
  | b :: s, count, acc, n => by
    by_cases hb : b = 95
    · subst hb
      rw [scanDigits, if_pos rfl, if_pos rfl, scanDigits_false]
      constructor
      · rintro ⟨b, v, t, rfl, hv, h⟩
        exact .underscore hv ((scanDigits_true t _ _ _).1 h)
      · intro h
        cases h with
        | digit hd _ => exact absurd hd digit_not_underscore
        | underscore hd h => exact ⟨_, _, _, rfl, hd, (scanDigits_true _ _ _ _).2 h⟩
    · by_cases hd : ∃ v, DigitIn base b v
      · obtain ⟨v, hv⟩ := hd
        rw [scanDigits_cons hv, scanDigits_true s]
        constructor
        · intro h; exact .digit hv h
        · intro h
          cases h with
          | digit hv' h =>
            have := ((scanDigit_iff _ _ _).2 hv).1
            rw [((scanDigit_iff _ _ _).2 hv').1] at this
            cases this
            exact h
          | underscore _ _ => exact absurd rfl hb
      · rw [scanDigits_none hb (fun v hv => hd ⟨v, hv⟩)]
        constructor
        · intro h; cases h
        · intro h
          cases h with
          | digit hv' h => exact absurd ⟨_, hv'⟩ hd
          | underscore _ _ => exact absurd rfl hb

theorem scanDigits_numeral {base : Nat} (s : Bytes) (n : Nat) :
    scanDigits base false 0 0 s = some n ↔ Numeral base s n := by
  rw [scanDigits_false]
  unfold Numeral
  simp only [scanDigits_true, Nat.zero_mul, Nat.zero_add]

theorem scanDigits_prefixed {base : Nat} (s : Bytes) (n : Nat) :
    scanDigits base true 0 0 s = some n ↔ Numeral base s n ∨ ∃ t, s = 95 :: t ∧ Numeral base t n := by
  cases s with
  | nil =>
    simp only [scanDigits, Numeral]
    simp
  | cons b s =>
    by_cases hb : b = 95
    · subst hb
      rw [scanDigits, if_pos rfl, if_pos rfl, scanDigits_numeral]
      constructor
      · intro h; exact .inr ⟨s, rfl, h⟩
      · rintro (⟨_, v, _, h, hd, -⟩ | ⟨t, h, hn⟩)
        · cases h; exact absurd hd digit_not_underscore
        · cases h; exact hn
    · rw [← scanDigits_numeral]
      have : scanDigits base true 0 0 (b :: s) = scanDigits base false 0 0 (b :: s) := by
        rw [scanDigits, scanDigits, if_neg hb, if_neg hb]
      rw [this]
      constructor
      · exact .inl
      · rintro (h | ⟨t, h, -⟩)
        · exact h
        · cases h; exact absurd rfl hb

theorem scanNat_iff (s : Bytes) (n : Nat) : scanNat s = some n ↔ GoNatural s n := by
  unfold scanNat
  split
  · constructor
    · intro h; cases h; exact .zero
    · intro h
      generalize hs : ([48] : Bytes) = s at h
      cases h with
      | zero => rfl
      | decimal h1 _ => subst hs; exact absurd rfl h1
      | octal h => cases hs; obtain ⟨_, _, _, h, _⟩ := h; cases h
      | octal_ h => cases hs
      | based _ h => cases hs
      | based_ _ h => cases hs
  · rename_i c rest
    have key : ∀ base, (c, base) ∈ basePrefixes → (∀ b', (c, b') ∈ basePrefixes → b' = base) → (∀ v, ¬ DigitIn 8 c v) → c ≠ 95 →
        (scanDigits base true 0 0 rest = some n ↔ GoNatural (48 :: c :: rest) n) := by
      intro base hm hu h8 h95
      rw [scanDigits_prefixed]
      constructor
      · rintro (h | ⟨t, rfl, h⟩)
        · exact .based hm h
        · exact .based_ hm h
      · intro h
        generalize hs : (48 :: c :: rest : Bytes) = s at h
        cases h with
        | zero => cases hs
        | decimal h1 _ => subst hs; exact absurd rfl h1
        | octal h => cases hs; obtain ⟨_, v, _, h, hd, _⟩ := h; cases h; exact absurd hd (h8 v)
        | octal_ h => cases hs; exact absurd rfl h95
        | based hm' h => cases hs; rw [hu _ hm'] at h; exact .inl h
        | based_ hm' h => cases hs; rw [hu _ hm'] at h; exact .inr ⟨_, rfl, h⟩
    have nodig : ∀ c : UInt8, 58 ≤ c.toNat → ∀ v, ¬ DigitIn 8 c v := by
      rintro c hc v ⟨h1, h2⟩; omega
    split
    · rename_i h
      rcases h with rfl | rfl <;>
        exact key 2 (by simp [basePrefixes]) (by simp [basePrefixes]) (nodig _ (by decide)) (by decide)
    · split
      · rename_i h
        rcases h with rfl | rfl <;>
          exact key 8 (by simp [basePrefixes]) (by simp [basePrefixes]) (nodig _ (by decide)) (by decide)
      · split
        · rename_i h
          rcases h with rfl | rfl <;>
            exact key 16 (by simp [basePrefixes]) (by simp [basePrefixes]) (nodig _ (by decide)) (by decide)
        · rename_i h1 h2 h3
          rw [scanDigits_prefixed]
          constructor
          · rintro (h | ⟨t, ht, h⟩)
            · exact .octal h
            · rw [ht]; exact .octal_ h
          · intro h
            have hnm : ∀ b, (c, b) ∉ basePrefixes := by
              intro b hb
              simp only [basePrefixes, List.mem_cons, Prod.mk.injEq, List.not_mem_nil, or_false] at hb
              rcases hb with hb | hb | hb | hb | hb | hb
              · exact h1 (.inl hb.1)
              · exact h1 (.inr hb.1)
              · exact h2 (.inl hb.1)
              · exact h2 (.inr hb.1)
              · exact h3 (.inl hb.1)
              · exact h3 (.inr hb.1)
            generalize hs : (48 :: c :: rest : Bytes) = s at h
            cases h with
            | zero => cases hs
            | decimal h1 _ => subst hs; exact absurd rfl h1
            | octal h => cases hs; exact .inl h
            | octal_ h => cases hs; exact .inr ⟨_, rfl, h⟩
            | based hm' h => cases hs; exact absurd hm' (hnm _)
            | based_ hm' h => cases hs; exact absurd hm' (hnm _)
  · rename_i hz hzc
    rw [scanDigits_numeral]
    constructor
    · intro h
      refine .decimal ?_ h
      intro h0
      cases s with
      | nil => cases h0
      | cons a t =>
        cases h0
        cases t with
        | nil => exact hz rfl
        | cons c t => exact hzc c t rfl
    · intro h
      cases h with
      | zero => exact absurd rfl hz
      | decimal _ h => exact h
      | octal h => obtain ⟨b, _, t, rfl, _⟩ := h; exact absurd rfl (hzc b t)
      | octal_ h => exact absurd rfl (hzc _ _)
      | based _ h => exact absurd rfl (hzc _ _)
      | based_ _ h => exact absurd rfl (hzc _ _)

theorem GoNatural.unsigned {s : Bytes} {n : Nat} (h : GoNatural s n) : ∃ b t, s = b :: t ∧ b ≠ 43 ∧ b ≠ 45 := by
  have dig : ∀ {base b v}, DigitIn base b v → b ≠ 43 ∧ b ≠ 45 := by
    rintro base b v ⟨-, h⟩
    constructor
    · rintro rfl
      have : (43 : UInt8).toNat = 43 := rfl
      omega
    · rintro rfl
      have : (45 : UInt8).toNat = 45 := rfl
      omega
  cases h with
  | zero => exact ⟨_, _, rfl, by decide, by decide⟩
  | decimal _ h => obtain ⟨b, _, t, rfl, hd, _⟩ := h; exact ⟨b, t, rfl, dig hd⟩
  | octal h => exact ⟨_, _, rfl, by decide, by decide⟩
  | octal_ h => exact ⟨_, _, rfl, by decide, by decide⟩
  | based _ h => exact ⟨_, _, rfl, by decide, by decide⟩
  | based_ _ h => exact ⟨_, _, rfl, by decide, by decide⟩

theorem bigSetString_iff (s : Bytes) (z : Int) : bigSetString s = some z ↔ GoInteger s z := by
  unfold bigSetString GoInteger
  have hno : ∀ (c : UInt8) (r d : Bytes) (n : Nat), (c = 43 ∨ c = 45) → GoNatural d n → c :: r ≠ d := by
    rintro c r d n hc h rfl
    obtain ⟨b, t, hs, h1, h2⟩ := GoNatural.unsigned h
    cases hs
    rcases hc with rfl | rfl
    · exact h1 rfl
    · exact h2 rfl
  split
  · simp only [Option.map_eq_some_iff, scanNat_iff]
    constructor
    · rintro ⟨n, h, rfl⟩; exact ⟨_, n, h, .inr (.inl ⟨rfl, rfl⟩)⟩
    · rintro ⟨d, n, h, ⟨hs, -⟩ | ⟨hs, rfl⟩ | ⟨hs, -⟩⟩
      · exact absurd hs (hno _ _ _ _ (.inl rfl) h)
      · cases hs; exact ⟨n, h, rfl⟩
      · cases hs
  · simp only [Option.map_eq_some_iff, scanNat_iff]
    constructor
    · rintro ⟨n, h, rfl⟩; exact ⟨_, n, h, .inr (.inr ⟨rfl, rfl⟩)⟩
    · rintro ⟨d, n, h, ⟨hs, -⟩ | ⟨hs, -⟩ | ⟨hs, rfl⟩⟩
      · exact absurd hs (hno _ _ _ _ (.inr rfl) h)
      · cases hs
      · cases hs; exact ⟨n, h, rfl⟩
  · rename_i h1 h2
    simp only [Option.map_eq_some_iff, scanNat_iff]
    constructor
    · rintro ⟨n, h, rfl⟩; exact ⟨_, n, h, .inl ⟨rfl, rfl⟩⟩
    · rintro ⟨d, n, h, ⟨hs, rfl⟩ | ⟨hs, -⟩ | ⟨hs, -⟩⟩
      · cases hs; exact ⟨n, h, rfl⟩
      · exact absurd hs (h1 _)
      · exact absurd hs (h2 _)

end Verif.Props
