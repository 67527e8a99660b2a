import Verif.Proofs.JsonNumber
import Verif.Props.JsonText
/-! Property C87: which JSON texts `JSONFloat64` accepts, and as which double. -/
namespace Verif.Props
open Verif.Spec

theorem moderate_padded {data : Bytes} (h : data.length ≤ 2000) (t : Bytes) (ht : Padded data t) : Moderate t := by
  obtain ⟨a, b, -, -, rfl⟩ := ht
  left
  simp at h
  omega

/-- C87: a text that does not start with a quote is accepted exactly when it is a JSON number in range, which becomes the nearest
double, or null, which becomes 0. -/
theorem C87_number (data : Bytes) (x : Nat) (hq : data.head? ≠ some 34) (hm : ∀ t, Padded data t → Moderate t) :
    jsonFloat64UnmarshalJSON data = .ok x ↔
      ∃ t, Padded data t ∧ ((t = nullText ∧ x = 0) ∨ (JsonNumber t ∧ DoubleText t x)) := by
  have core : jsonFloat data = .ok x ↔ ∃ t, Padded data t ∧ ((t = nullText ∧ x = 0) ∨ (JsonNumber t ∧ DoubleText t x)) := by
    unfold jsonFloat
    simp only []
    constructor
    · intro h
      refine ⟨trimJson data, trimJson_padded data, ?_⟩
      split at h
      · rename_i hn
        cases h
        exact .inl ⟨hn, rfl⟩
      · split at h
        · rename_i hok
          exact .inr ⟨(jsonNumberOk_iff _).1 hok, (parseFloat_iff (hm _ (trimJson_padded data)) x).1 h⟩
        · simp at h
    · rintro ⟨t, hp, ⟨rfl, rfl⟩ | ⟨h1, h⟩⟩
      · have : trimJson data = jsonNull := trimJson_of_padded (t := nullText) hp (by simp [nullText]; decide)
          (by simp [nullText]; decide) (by simp [nullText])
        rw [if_pos this]
      · obtain ⟨hs, hne, h110⟩ := number_space h1
        have ht : trimJson data = t := trimJson_of_padded hp (fun b hb => hs b (List.mem_of_head? hb))
          (fun b hb => hs b (List.mem_of_getLast? hb)) hne
        rw [ht, if_neg (by rintro rfl; exact h110 rfl), if_pos ((jsonNumberOk_iff t).2 h1)]
        exact (parseFloat_iff (hm t hp) x).2 h
  unfold jsonFloat64UnmarshalJSON
  split
  · rw [← core]
    constructor
    · intro h; cases h
    · intro h
      have : jsonFloat [] = .err .parse := by decide
      rw [this] at h; cases h
  · exact absurd rfl hq
  · exact core

/-- C87: a text that starts with a quote is accepted exactly when it is a JSON string holding a Go floating-point literal, a decimal
integer, an infinity or NaN, with an optional sign. -/
theorem C87_string (data : Bytes) (x : Nat) (hq : data.head? = some 34) (hm : ∀ s, JsonString data s → Moderate s) :
    jsonFloat64UnmarshalJSON data = .ok x ↔ ∃ s, JsonString data s ∧ DoubleText s x := by
  cases data with
  | nil => cases hq
  | cons b rest =>
    cases hq
    show (match jsonString (34 :: rest) with
      | .ok s => parseFloat s
      | .err e => .err e
      | .panic => .panic) = _ ↔ _
    simp only [← jsonString_iff] at hm ⊢
    cases h : jsonString (34 :: rest) with
    | ok s =>
      simp only [Res.ok.injEq]
      rw [parseFloat_iff (hm s h)]
      constructor
      · intro h; exact ⟨s, rfl, h⟩
      · rintro ⟨_, rfl, h⟩; exact h
    | err e => simp
    | panic => simp

/-- C87: a JSON number stands for a decimal number. -/
theorem C87_value (t : Bytes) (ht : JsonNumber t) : ∃ u m z, (t = u ∨ t = 45 :: u) ∧ FloatText u m 10 z := jsonNumber_float ht

/-- C87: it is accepted exactly when that is less than `2^1024 - 2^970`: half way from the largest double to 2^1024. -/
theorem C87_range (t u : Bytes) (m : Nat) (z : Int) (ht : JsonNumber t) (hm : ∀ s, Padded t s → Moderate s)
    (hu : t = u ∨ t = 45 :: u) (hf : FloatText u m 10 z) :
    (∃ x, jsonFloat64UnmarshalJSON t = .ok x) ↔ m * 10 ^ z.toNat < (2 ^ 1024 - 2 ^ 970) * 10 ^ (-z).toNat := by
  have hpad : Padded t t := ⟨[], [], by simp [Blank], by simp [Blank], by simp⟩
  obtain ⟨hsp, hne, h110⟩ := number_space ht
  have hq : t.head? ≠ some 34 := by
    obtain ⟨y, r, rfl, hy⟩ := floatText_head hf
    have := number_head hy
    rcases hu with rfl | rfl
    · simp
      rintro rfl
      rcases hy with h | ⟨v, h⟩
      · simp at h
      · unfold DigitIn at h; simp at h
    · simp
  constructor
  · rintro ⟨x, hx⟩
    obtain ⟨s, hp, ⟨rfl, -⟩ | ⟨hjn, hdt⟩⟩ := (C87_number t x hq hm).1 hx
    · exfalso
      obtain ⟨a, b, ha, hb, rfl⟩ := hp
      cases a with
      | nil => exact h110 rfl
      | cons y a =>
        have := hsp y (by simp)
        rw [(isSpace_iff y).2 (ha y (by simp))] at this
        simp at this
    · have hs : s = t := by
        have e1 := trimJson_of_padded hp (fun b hb => (number_space hjn).1 b (List.mem_of_head? hb))
          (fun b hb => (number_space hjn).1 b (List.mem_of_getLast? hb)) (number_space hjn).2.1
        have e2 := trimJson_of_padded hpad (fun b hb => hsp b (List.mem_of_head? hb))
          (fun b hb => hsp b (List.mem_of_getLast? hb)) hne
        rw [← e1, e2]
      subst hs
      have hms := hm s hpad
      have hmu : Moderate u := by rcases hu with rfl | rfl; exact hms; exact moderate_cons hms
      have key : ∀ y, parseUnsignedFloat u = some y → m * 10 ^ z.toNat < (2 ^ 1024 - 2 ^ 970) * 10 ^ (-z).toNat := by
        intro y hy
        obtain ⟨e, he, hc⟩ := readFloat_of hf
        unfold parseUnsignedFloat at hy
        split at hy
        · rename_i hi
          obtain ⟨w, r, rfl, hw⟩ := floatText_head hf
          unfold isInf at hi
          simp [(number_head hw).1] at hi
        · rw [he] at hy
          simp only at hy
          rw [clip_eq hmu hf hc] at hy
          exact ((floatOf_iff (.inl rfl) z y).1 hy).small
      have hpf := (parseFloat_iff hms x).2 hdt
      unfold parseFloat at hpf
      obtain ⟨w, r, rfl, hw⟩ := floatText_head hf
      have hh := number_head hw
      rcases hu with rfl | rfl
      · rw [if_neg (by simp [hh.2.1])] at hpf
        split at hpf
        · rename_i heq; cases heq; exact absurd rfl hh.2.2.2
        · rename_i heq; cases heq; exact absurd rfl hh.2.2.1
        · split at hpf
          · rename_i y hy; exact key y hy
          · simp at hpf
      · rw [if_neg (by simp [lowerAscii])] at hpf
        simp only at hpf
        split at hpf
        · rename_i y hy; exact key y hy
        · simp at hpf
  · intro hlt
    have hn : ∃ y, NearestPow m 10 z y := nearest_exists (Nat.pow_pos (by decide)) hlt
    obtain ⟨y, hy⟩ := hn
    rcases hu with rfl | rfl
    · exact ⟨y, (C87_number t y hq hm).2 ⟨t, hpad, .inr ⟨ht, .number hf hy⟩⟩⟩
    · exact ⟨_, (C87_number _ _ hq hm).2 ⟨_, hpad, .inr ⟨ht, .minus hf hy⟩⟩⟩

-- "0.1" between blanks, 1.7976931348623159e308 (the largest double is ...157e308), -0, null, and 01, which is no JSON number
example : jsonFloat64UnmarshalJSON ([32] ++ "0.1".toUTF8.toList ++ [10]) = .ok 0x3FB999999999999A ∧
    jsonFloat64UnmarshalJSON "1.7976931348623158e308".toUTF8.toList = .ok (infBits - 1) ∧
    jsonFloat64UnmarshalJSON "1.7976931348623159e308".toUTF8.toList = .err .parse ∧
    jsonFloat64UnmarshalJSON "-0".toUTF8.toList = .ok (2 ^ 63) ∧
    jsonFloat64UnmarshalJSON "null".toUTF8.toList = .ok 0 ∧
    jsonFloat64UnmarshalJSON "01".toUTF8.toList = .err .parse := by decide +kernel
-- quoted: hexadecimal, underscores, infinity and NaN; the smallest double; half of it is 0, a little more is not
example : jsonFloat64UnmarshalJSON "\"0x_1.8p1\"".toUTF8.toList = .ok 0x4008000000000000 ∧
    jsonFloat64UnmarshalJSON "\"1_0\"".toUTF8.toList = .ok 0x4024000000000000 ∧
    jsonFloat64UnmarshalJSON "\"1__0\"".toUTF8.toList = .err .parse ∧
    jsonFloat64UnmarshalJSON "\"-Inf\"".toUTF8.toList = .ok (2 ^ 63 + infBits) ∧
    jsonFloat64UnmarshalJSON "\"nan\"".toUTF8.toList = .ok 0x7FF8000000000001 ∧
    jsonFloat64UnmarshalJSON "\"0x1p-1074\"".toUTF8.toList = .ok 1 ∧
    jsonFloat64UnmarshalJSON "\"0x1p-1075\"".toUTF8.toList = .ok 0 ∧
    jsonFloat64UnmarshalJSON "\"0x1.1p-1075\"".toUTF8.toList = .ok 1 ∧
    jsonFloat64UnmarshalJSON "\"1e400\"".toUTF8.toList = .err .parse ∧
    jsonFloat64UnmarshalJSON "\"1e-999999\"".toUTF8.toList = .ok 0 := by decide +kernel
-- they meet the hypotheses
example : ∀ t, Padded "0.1".toUTF8.toList t → Moderate t := moderate_padded (by decide +kernel)
-- 9007199254740993 = 2^53 + 1 is half way between two doubles: the even one is taken
example : Nearest 9007199254740993 1 0x4340000000000000 :=
  (roundFloat_iff _ _ _ (by decide)).1 (by decide +kernel)

/-- C87: the double is determined: at most one is nearest. -/
theorem C87_unique (p q b c : Nat) (hb : Nearest p q b) (hc : Nearest p q c) : b = c := nearest_unique hb hc

/-- C87: no input makes it panic. -/
theorem C87_no_panic (data : Bytes) : jsonFloat64UnmarshalJSON data ≠ .panic := by
  unfold jsonFloat64UnmarshalJSON
  split
  · simp
  · rename_i r
    split
    · exact parseFloat_ne_panic _
    · simp
    · rename_i h; exact absurd h (jsonString_panic _)
  · unfold jsonFloat
    simp only []
    split
    · simp
    · split
      · exact parseFloat_ne_panic _
      · simp

/-- The text `.00…01e120001` with 120000 zeros: the number 1. -/
def longOne : Bytes := 46 :: (List.replicate 120000 48 ++ [49]) ++ [101, 49, 50, 48, 48, 48, 49]

theorem longOne_mantissa : Mantissa 10 (46 :: (List.replicate 120000 48 ++ [49])) 1 120001 := by
  have zeros : ∀ n, MoreDigits 10 0 (List.replicate n 48 ++ [49]) 1 := by
    intro n
    induction n with
    | zero => exact .digit (v := 1) (by unfold DigitIn; simp) (.done 1)
    | succ n ih => exact .digit (v := 0) (by unfold DigitIn; simp) ih
  have count : ∀ n, digitCount (List.replicate n 48 ++ [49]) = n + 1 := by
    intro n; unfold digitCount; simp [List.filter_append]
  have hnum : Numeral 10 (List.replicate 120000 48 ++ [49]) 1 :=
    ⟨48, 0, List.replicate 119999 48 ++ [49], rfl, by unfold DigitIn; simp, zeros _⟩
  have := Mantissa.point hnum
  rw [count] at this
  exact this

theorem longOne_exponent : Exponent [101, 69] [101, 49, 50, 48, 48, 48, 49] (120001 : Nat) := by
  refine .plain (by simp) ⟨49, 1, _, rfl, by unfold DigitIn; simp, ?_⟩
  refine .digit (v := 2) (by unfold DigitIn; simp) (.digit (v := 0) (by unfold DigitIn; simp) (.digit (v := 0)
    (by unfold DigitIn; simp) (.digit (v := 0) (by unfold DigitIn; simp) (.digit (v := 1) (by unfold DigitIn; simp) ?_))))
  exact .done _

theorem longOne_text : FloatText longOne 1 10 0 := .decimalExp longOne_mantissa longOne_exponent

theorem isInf_point (r : Bytes) : ¬ isInf (46 :: r) = true := by unfold isInf; simp [lowerAscii]

theorem quoted_point {r : Bytes} {x : Nat} (hv : Verbatim (46 :: r)) (h : parseUnsignedFloat (46 :: r) = some x) :
    jsonFloat64UnmarshalJSON ([34] ++ (46 :: r) ++ [34]) = .ok x := by
  show (match jsonString ([34] ++ (46 :: r) ++ [34]) with
    | .ok s => parseFloat s
    | .err e => .err e
    | .panic => .panic) = _
  rw [jsonString_quoted _ hv]
  show parseFloat (46 :: r) = _
  unfold parseFloat
  rw [if_neg (by simp [lowerAscii])]
  split
  · rename_i heq; cases heq
  · rename_i heq; cases heq
  · rw [h]

/-- C87: why the texts are moderate.  `strconv` stops reading the exponent at five digits, so it takes `longOne` for 0. -/
theorem C87_needed : DoubleText longOne 0x3FF0000000000000 ∧ jsonFloat64UnmarshalJSON ([34] ++ longOne ++ [34]) = .ok 0 := by
  have hmem : ∀ b ∈ longOne, b = 46 ∨ b = 48 ∨ b = 49 ∨ b = 101 ∨ b = 50 := by
    intro b hb
    simp only [longOne, List.mem_cons, List.mem_append, List.mem_replicate, List.not_mem_nil, or_false] at hb
    rcases hb with (h | ⟨-, h⟩ | h) | h | h | h | h | h | h | h <;> simp [h]
  have hv : Verbatim longOne := by
    intro b hb
    rcases hmem b hb with rfl | rfl | rfl | rfl | rfl <;> decide
  refine ⟨.number longOne_text ((roundFloat_iff _ _ _ (by decide)).1 (by decide +kernel)), ?_⟩
  have hscan : scanFloatDigits 10 false false 0 0 longOne = (1, 120001, true, [101, 49, 50, 48, 48, 48, 49]) :=
    scanFloat_mantissa longOne_mantissa (letters_stop stops_e longOne_exponent)
  have hexp : floatExp 101 [101, 49, 50, 48, 48, 48, 49] = some 12000 := by decide
  have hu : longOne.contains 95 = false := by
    cases h : longOne.contains 95 with
    | false => rfl
    | true => have := hmem 95 (by simpa using h); simp at this
  have hread : readFloat longOne = some (1, 10, (12000 : Int) - (120001 : Nat)) := by
    rw [readFloat_ten (floatPrefix_ten ?_) hscan, hexp, hu]
    · rfl
    · intro a c r h hc
      rcases hmem c (by rw [h]; simp) with rfl | rfl | rfl | rfl | rfl <;> simp at hc
  have hp : parseUnsignedFloat longOne = some 0 := by
    unfold parseUnsignedFloat
    rw [if_neg, hread]
    · exact floatOf_tiny (.inl rfl) (Nat.one_lt_two_pow (by decide)) (by omega)
    · exact isInf_point _
  exact quoted_point hv hp

end Verif.Props
