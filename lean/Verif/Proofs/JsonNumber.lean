import Verif.Proofs.FloatValue
import Verif.Props.JsonInput
/-! The number grammar of `encoding/json` is that of RFC 8259. -/
namespace Verif.Props
open Verif.Spec

theorem isDigit_nat (b : UInt8) : isDigit b = true ↔ 48 ≤ b.toNat ∧ b.toNat ≤ 57 := by
  unfold isDigit
  simp only [Bool.and_eq_true, decide_eq_true_eq, UInt8.le_iff_toNat_le]
  rfl

/-- The rest does not begin with a digit. -/
def NoDigit (r : Bytes) : Prop := ∀ b t, r = b :: t → isDigit b = false

theorem dropDigits {d r : Bytes} (hd : ∀ b ∈ d, 48 ≤ b.toNat ∧ b.toNat ≤ 57) (hr : NoDigit r) : (d ++ r).dropWhile isDigit = r := by
  induction d with
  | nil =>
    cases r with
    | nil => rfl
    | cons b t => rw [List.nil_append, List.dropWhile_cons, if_neg (by simp [hr b t rfl])]
  | cons b d ih =>
    rw [List.cons_append, List.dropWhile_cons, if_pos ((isDigit_nat b).2 (hd b (by simp)))]
    exact ih fun x hx => hd x (by simp [hx])

theorem jsonDigits1_iff (s r : Bytes) : jsonDigits1 s = some r ↔ ∃ d, Digits d ∧ s = d ++ r ∧ NoDigit r := by
  constructor
  · intro h
    unfold jsonDigits1 at h
    split at h
    · rename_i b t
      split at h
      · rename_i hb
        cases h
        refine ⟨b :: t.takeWhile isDigit, ⟨by simp, ?_⟩, by simp [List.takeWhile_append_dropWhile], ?_⟩
        · intro x hx
          rcases List.mem_cons.1 hx with rfl | hx
          · exact (isDigit_nat _).1 hb
          · have := List.all_takeWhile (p := isDigit) (l := t)
            rw [List.all_eq_true] at this
            exact (isDigit_nat _).1 (this x hx)
        · intro x y hxy
          have := List.head?_dropWhile_not isDigit t
          rw [hxy] at this
          simpa using this
      · simp at h
    · simp at h
  · rintro ⟨d, ⟨hne, hd⟩, rfl, hr⟩
    cases d with
    | nil => exact absurd rfl hne
    | cons b d =>
      rw [List.cons_append, jsonDigits1]
      rw [if_pos ((isDigit_nat b).2 (hd b (by simp))), dropDigits (fun x hx => hd x (by simp [hx])) hr]

theorem allDigits_iff (s : Bytes) : (jsonDigits1 s == some []) = true ↔ Digits s := by
  rw [beq_iff_eq, jsonDigits1_iff]
  constructor
  · rintro ⟨d, hd, rfl, -⟩; simpa using hd
  · intro h; exact ⟨s, h, by simp, by intro b t h; simp at h⟩

/-- The exponent may be missing. -/
def ExpText (s : Bytes) : Prop :=
  s = [] ∨ ∃ c d, (c = 101 ∨ c = 69) ∧ Digits d ∧ (s = c :: d ∨ s = c :: 43 :: d ∨ s = c :: 45 :: d)

/-- So may the fraction. -/
def FracText (s : Bytes) : Prop := s = [] ∨ ∃ d, Digits d ∧ s = 46 :: d

theorem expOk_iff (s : Bytes) : jsonExpOk s = true ↔ ExpText s := by
  unfold ExpText
  cases s with
  | nil => simp [jsonExpOk]
  | cons b r =>
    rw [jsonExpOk.eq_def]
    simp only [Bool.and_eq_true, Bool.or_eq_true, beq_iff_eq]
    constructor
    · rintro ⟨hb, h⟩
      right
      split at h
      · rename_i r'
        exact ⟨b, r', hb, (allDigits_iff _).1 h, .inr (.inl rfl)⟩
      · rename_i r'
        exact ⟨b, r', hb, (allDigits_iff _).1 h, .inr (.inr rfl)⟩
      · exact ⟨b, r, hb, (allDigits_iff _).1 h, .inl rfl⟩
    · rintro (h | ⟨c, d, hc, hd, h | h | h⟩)
      · simp at h
      · cases h
        refine ⟨hc, ?_⟩
        split
        · rename_i r'; have := hd.2 43 (by simp); simp at this
        · rename_i r'; have := hd.2 45 (by simp); simp at this
        · exact (allDigits_iff _).2 hd
      · cases h; exact ⟨hc, (allDigits_iff _).2 hd⟩
      · cases h; exact ⟨hc, (allDigits_iff _).2 hd⟩

theorem exp_noDigit {s : Bytes} (h : ExpText s) : NoDigit s ∧ s.head? ≠ some 46 := by
  rcases h with rfl | ⟨c, d, hc, -, h⟩
  · exact ⟨by intro b t h; simp at h, by simp⟩
  · have : ∃ r, s = c :: r := by rcases h with h | h | h <;> exact ⟨_, h⟩
    obtain ⟨r, rfl⟩ := this
    refine ⟨?_, ?_⟩
    · intro b t hb; cases hb; rcases hc with rfl | rfl <;> decide
    · rcases hc with rfl | rfl <;> simp

theorem fracOk_iff (s : Bytes) : jsonFracOk s = true ↔ ∃ frac exp, s = frac ++ exp ∧ FracText frac ∧ ExpText exp := by
  constructor
  · intro h
    unfold jsonFracOk at h
    split at h
    · rename_i r
      split at h
      · rename_i r' hr
        obtain ⟨d, hd, rfl, -⟩ := (jsonDigits1_iff _ _).1 hr
        exact ⟨46 :: d, r', rfl, .inr ⟨d, hd, rfl⟩, (expOk_iff _).1 h⟩
      · simp at h
    · exact ⟨[], s, rfl, .inl rfl, (expOk_iff _).1 h⟩
  · rintro ⟨frac, exp, rfl, rfl | ⟨d, hd, rfl⟩, he⟩
    · rw [List.nil_append]
      unfold jsonFracOk
      split
      · exact absurd rfl (exp_noDigit he).2
      · exact (expOk_iff _).2 he
    · rw [List.cons_append, jsonFracOk, (jsonDigits1_iff _ exp).2 ⟨d, hd, rfl, (exp_noDigit he).1⟩]
      exact (expOk_iff _).2 he

theorem frac_noDigit {frac exp : Bytes} (hf : FracText frac) (he : ExpText exp) : NoDigit (frac ++ exp) := by
  rcases hf with rfl | ⟨d, -, rfl⟩
  · exact (exp_noDigit he).1
  · intro b t h; cases h; decide

theorem unsignedOk_iff (s : Bytes) : jsonUnsignedOk s = true ↔
    ∃ int frac exp, s = int ++ frac ++ exp ∧ (Digits int ∧ (int.head? = some 48 → int = [48])) ∧ FracText frac ∧ ExpText exp := by
  constructor
  · intro h
    unfold jsonUnsignedOk at h
    split at h
    · rename_i r
      obtain ⟨frac, exp, rfl, hf, he⟩ := (fracOk_iff _).1 h
      refine ⟨[48], frac, exp, by simp, ⟨⟨by simp, by simp⟩, by simp⟩, hf, he⟩
    · rename_i s h48
      split at h
      · rename_i r hr
        obtain ⟨d, hd, rfl, -⟩ := (jsonDigits1_iff _ _).1 hr
        obtain ⟨frac, exp, rfl, hf, he⟩ := (fracOk_iff _).1 h
        refine ⟨d, frac, exp, by simp, ⟨hd, ?_⟩, hf, he⟩
        intro hh
        cases d with
        | nil => simp at hh
        | cons b d => simp at hh; subst hh; exact absurd rfl (h48 _)
      · simp at h
  · rintro ⟨int, frac, exp, rfl, ⟨hd, h0⟩, hf, he⟩
    rw [List.append_assoc]
    unfold jsonUnsignedOk
    split
    · rename_i r hr
      cases int with
      | nil => exact absurd rfl hd.1
      | cons b d =>
        cases hr
        have := h0 rfl
        simp only [List.cons.injEq, true_and] at this
        subst this
        exact (fracOk_iff _).2 ⟨frac, exp, rfl, hf, he⟩
    · rw [(jsonDigits1_iff _ (frac ++ exp)).2 ⟨int, hd, rfl, frac_noDigit hf he⟩]
      exact (fracOk_iff _).2 ⟨frac, exp, rfl, hf, he⟩

theorem jsonNumberOk_iff (s : Bytes) : jsonNumberOk s = true ↔ JsonNumber s := by
  unfold JsonNumber
  constructor
  · intro h
    unfold jsonNumberOk at h
    split at h
    · obtain ⟨int, frac, exp, rfl, hi, hf, he⟩ := (unsignedOk_iff _).1 h
      exact ⟨[45], int, frac, exp, by simp, .inr rfl, hi, hf, he⟩
    · obtain ⟨int, frac, exp, rfl, hi, hf, he⟩ := (unsignedOk_iff _).1 h
      exact ⟨[], int, frac, exp, by simp, .inl rfl, hi, hf, he⟩
  · rintro ⟨sign, int, frac, exp, rfl, rfl | rfl, hi, hf, he⟩
    · have := (unsignedOk_iff _).2 ⟨int, frac, exp, rfl, hi, hf, he⟩
      rw [List.nil_append]
      unfold jsonNumberOk
      split
      · rename_i r hr
        cases int with
        | nil => exact absurd rfl hi.1.1
        | cons b d => cases hr; have := hi.1.2 45 (by simp); simp at this
      · exact this
    · have := (unsignedOk_iff _).2 ⟨int, frac, exp, rfl, hi, hf, he⟩
      simpa [jsonNumberOk] using this

theorem exp_space {s : Bytes} (h : ExpText s) : ∀ b ∈ s, isSpace b = false := by
  have dig : ∀ {d : Bytes}, Digits d → ∀ b ∈ d, isSpace b = false := by
    intro d hd b hb
    have := hd.2 b hb
    cases h : isSpace b with
    | false => rfl
    | true => rcases (isSpace_iff b).1 h with rfl | rfl | rfl | rfl <;> simp at this
  rcases h with rfl | ⟨c, d, hc, hd, h⟩
  · simp
  · have hcs : isSpace c = false := by rcases hc with rfl | rfl <;> decide
    have h43 : isSpace 43 = false := by decide
    have h45 : isSpace 45 = false := by decide
    rcases h with rfl | rfl | rfl <;> intro b hb <;> simp only [List.mem_cons] at hb
    · rcases hb with rfl | hb
      · exact hcs
      · exact dig hd b hb
    · rcases hb with rfl | rfl | hb
      · exact hcs
      · exact h43
      · exact dig hd b hb
    · rcases hb with rfl | rfl | hb
      · exact hcs
      · exact h45
      · exact dig hd b hb

theorem number_space {s : Bytes} (h : JsonNumber s) : (∀ b ∈ s, isSpace b = false) ∧ s ≠ [] ∧ s.head? ≠ some 110 := by
  obtain ⟨sign, int, frac, exp, rfl, hs, ⟨hd, -⟩, hf, he⟩ := h
  have dig : ∀ {d : Bytes}, Digits d → ∀ b ∈ d, isSpace b = false := by
    intro d hd b hb
    have := hd.2 b hb
    cases h : isSpace b with
    | false => rfl
    | true => rcases (isSpace_iff b).1 h with rfl | rfl | rfl | rfl <;> simp at this
  refine ⟨?_, ?_, ?_⟩
  · intro b hb
    simp only [List.mem_append] at hb
    rcases hb with ((hb | hb) | hb) | hb
    · rcases hs with rfl | rfl
      · simp at hb
      · simp at hb; subst hb; decide
    · exact dig hd b hb
    · rcases hf with rfl | ⟨d, hd, rfl⟩
      · simp at hb
      · rcases List.mem_cons.1 hb with rfl | hb
        · decide
        · exact dig hd b hb
    · exact exp_space he b hb
  · have := hd.1; simp [this]
  · rcases hs with rfl | rfl
    · cases int with
      | nil => exact absurd rfl hd.1
      | cons b d =>
        have := hd.2 b (by simp)
        simp
        rintro rfl
        simp at this
    · simp

theorem more_of_digits : (d : Bytes) → (∀ b ∈ d, 48 ≤ b.toNat ∧ b.toNat ≤ 57) → ∀ n, ∃ n', MoreDigits 10 n d n'
  | [], _, n => ⟨n, .done n⟩
  | b :: d, h, n => by
    have hb := h b (by simp)
    obtain ⟨n', hn⟩ := more_of_digits d (fun x hx => h x (by simp [hx])) (n * 10 + (b.toNat - 48))
    exact ⟨n', .digit (by unfold DigitIn; omega) hn⟩

theorem numeral_of_digits {d : Bytes} (h : Digits d) : ∃ n, Numeral 10 d n := by
  cases d with
  | nil => exact absurd rfl h.1
  | cons b d =>
    have hb := h.2 b (by simp)
    obtain ⟨n', hn⟩ := more_of_digits d (fun x hx => h.2 x (by simp [hx])) (b.toNat - 48)
    exact ⟨n', b, b.toNat - 48, d, rfl, by unfold DigitIn; omega, hn⟩

/-- A JSON number is a floating-point literal, but for the sign. -/
theorem jsonNumber_float {s : Bytes} (h : JsonNumber s) : ∃ u m z, (s = u ∨ s = 45 :: u) ∧ FloatText u m 10 z := by
  obtain ⟨sign, int, frac, exp, rfl, hs, ⟨hd, -⟩, hf, he⟩ := h
  have hm : ∃ m f, Mantissa 10 (int ++ frac) m f := by
    obtain ⟨n, hn⟩ := numeral_of_digits hd
    rcases hf with rfl | ⟨d, hd', rfl⟩
    · rw [List.append_nil]; exact ⟨n, 0, .whole hn⟩
    · obtain ⟨k, hk⟩ := numeral_of_digits hd'
      exact ⟨_, _, .fraction hn hk⟩
  obtain ⟨m, f, hm⟩ := hm
  have hu : ∃ z, FloatText (int ++ frac ++ exp) m 10 z := by
    rcases he with rfl | ⟨c, d, hc, hd', h⟩
    · rw [List.append_nil]; exact ⟨_, .decimal hm⟩
    · obtain ⟨k, hk⟩ := numeral_of_digits hd'
      have hc' : c ∈ ([101, 69] : List UInt8) := by simpa using hc
      rcases h with rfl | rfl | rfl
      · exact ⟨_, .decimalExp hm (.plain hc' hk)⟩
      · exact ⟨_, .decimalExp hm (.plus hc' hk)⟩
      · exact ⟨_, .decimalExp hm (.minus hc' hk)⟩
  obtain ⟨z, hz⟩ := hu
  refine ⟨_, m, z, ?_, hz⟩
  rcases hs with rfl | rfl
  · left; simp
  · right; simp

end Verif.Props
