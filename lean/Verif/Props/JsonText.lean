import Verif.Proofs.GoInteger
import Verif.Props.U128Text
import Verif.Proofs.Got
/-! Property C80, and C68 for strings with escapes. -/
set_option linter.unusedSimpArgs false
namespace Verif.Props
open Spec

theorem jsonString_panic (data : Bytes) : jsonString data ≠ .panic := by
  unfold jsonString
  simp only []
  split
  · simp
  · split
    · exact jsonUnquote_ne_panic _ _
    · simp

/-- C68 for every text that starts with a quote, escapes included: an `Int64` is read exactly from a JSON string that is an
integer text in range. -/
theorem C68_int64_string (data : Bytes) (z : Int) (hq : data.head? = some 34) : int64UnmarshalJSON data = .ok z ↔
    ∃ s, JsonString data s ∧ -2 ^ 63 ≤ z ∧ z < 2 ^ 63 ∧ SignedText s z := by
  cases data with
  | nil => cases hq
  | cons b rest =>
    cases hq
    show (match jsonString (34 :: rest) with
      | .ok s => parseInt64 s
      | .err e => .err e
      | .panic => .panic) = _ ↔ _
    simp only [← jsonString_iff]
    cases jsonString (34 :: rest) with
    | ok s =>
      simp only [parseInt64_iff, Res.ok.injEq]
      constructor
      · intro h; exact ⟨s, rfl, h⟩
      · rintro ⟨_, rfl, h⟩; exact h
    | err e => simp
    | panic => simp

/-- C68: the same for `Uint64`. -/
theorem C68_uint64_string (data : Bytes) (n : Nat) (hq : data.head? = some 34) : uint64UnmarshalJSON data = .ok n ↔
    ∃ s, JsonString data s ∧ n < 2 ^ 64 ∧ Digits s ∧ n = digitsNat s := by
  cases data with
  | nil => cases hq
  | cons b rest =>
    cases hq
    show (match jsonString (34 :: rest) with
      | .ok s => parseUint64 s
      | .err e => .err e
      | .panic => .panic) = _ ↔ _
    simp only [← jsonString_iff]
    cases jsonString (34 :: rest) with
    | ok s =>
      simp only [parseUint64_iff, Res.ok.injEq]
      constructor
      · intro h; exact ⟨s, rfl, h⟩
      · rintro ⟨_, rfl, h⟩; exact h
    | err e => simp
    | panic => simp

/-- C68: `HexBytes` on every input. -/
theorem C68_hex_string (data t : Bytes) : hexBytesUnmarshalJSON data = .ok t ↔ ∃ s, JsonString data s ∧ HexText s t := by
  unfold hexBytesUnmarshalJSON
  simp only [← jsonString_iff]
  cases jsonString data with
  | ok s =>
    simp only [hexDecode_iff, Res.ok.injEq]
    constructor
    · intro h; exact ⟨s, rfl, h⟩
    · rintro ⟨_, rfl, h⟩; exact h
  | err e => simp
  | panic => simp

/-- The number 5 with its digit written as an escape; a hex text with an escaped `f`; nothing may follow the string. -/
example : JsonString "\"\\u0035\"".toUTF8.toList [53] ∧ int64UnmarshalJSON "\"\\u0035\"".toUTF8.toList = .ok 5 ∧
    hexBytesUnmarshalJSON " \"\\u0066f\" ".toUTF8.toList = .ok [255] ∧
    int64UnmarshalJSON "\"5\"6".toUTF8.toList = .err .parse := by
  refine ⟨(jsonString_iff _ _).1 ?_, ?_, ?_, ?_⟩ <;> decide +kernel

/-- A surrogate pair, a lone surrogate and a broken byte. -/
example : Quoted "\\ud83d\\ude00\"".toUTF8.toList (utf8 0x1F600) ∧ Quoted "\\ud83dx\"".toUTF8.toList (utf8 0xFFFD ++ [120]) ∧
    Quoted [0xff, 34] (utf8 0xFFFD) := by
  refine ⟨jsonUnquote_sound 20 _ _ ?_, jsonUnquote_sound 20 _ _ ?_, jsonUnquote_sound 20 _ _ ?_⟩ <;> decide +kernel

theorem HexPrefixed.iff (s : Bytes) : (s.take 2 = [48, 120] ∨ s.take 2 = [48, 88]) ↔ HexPrefixed s := by
  unfold HexPrefixed
  match s with
  | [] => simp
  | [a] => simp
  | a :: b :: t =>
    simp only [List.take_succ_cons, List.take_zero, List.cons.injEq, and_true]
    constructor
    · rintro (⟨rfl, rfl⟩ | ⟨rfl, rfl⟩)
      · exact ⟨t, .inl ⟨rfl, rfl, rfl⟩⟩
      · exact ⟨t, .inr ⟨rfl, rfl, rfl⟩⟩
    · rintro ⟨t, ⟨h1, h2, -⟩ | ⟨h1, h2, -⟩⟩
      · exact .inl ⟨h1, h2⟩
      · exact .inr ⟨h1, h2⟩

theorem HexText.length {s t : Bytes} (h : HexText s t) : s.length = 2 * t.length := by
  induction h with
  | nil => rfl
  | cons _ _ _ ih => simp only [List.length_cons, ih]; omega

theorem hexDecode_ne_panic : ∀ s, hexDecode s ≠ .panic := by
  intro s
  induction s using hexDecode.induct with
  | case1 => simp [hexDecode]
  | case2 => simp [hexDecode]
  | case3 a b rest x y ha hb r hr ih => simp [hexDecode, ha, hb, hr]
  | case4 a b rest x y ha hb e hr ih => simp [hexDecode, ha, hb, hr]
  | case5 a b rest x y ha hb hr ih => exact absurd hr ih
  | case6 a b rest h => rw [hexDecode]; split <;> simp_all

/-- `unmarshalJSON_hex` fails or panics. -/
theorem unmarshalHex_cases (j : U128) (s : Bytes) : (∀ i, j.unmarshalHex s ≠ .ok i) ∧
    (j.unmarshalHex s = .panic ↔ (s.drop 2).length = 16 ∧ ∃ t, HexText (s.drop 2) t) := by
  unfold U128.unmarshalHex
  simp only []
  by_cases hl : (s.drop 2).length = 16
  · rw [if_neg (by simpa using hl)]
    cases hd : hexDecode (s.drop 2) with
    | ok d =>
      have ht := (hexDecode_iff _ _).1 hd
      have hlen := HexText.length ht
      rw [hl] at hlen
      have h8 : d.drop 8 = [] := List.drop_eq_nil_of_le (by omega)
      have : getUint j.order 8 (d.drop 8) = .panic := by rw [h8]; cases j.order <;> rfl
      simp only [this]
      cases getUint j.order 8 (d.take 8) <;> exact ⟨by simp, iff_of_true rfl ⟨hl, d, ht⟩⟩
    | err e =>
      refine ⟨by simp, by simp; intro _ t ht; rw [(hexDecode_iff _ _).2 ht] at hd; cases hd⟩
    | panic => exact absurd hd (hexDecode_ne_panic _)
  · rw [if_pos (by simpa using hl)]
    exact ⟨by simp, by simp; intro h; exact absurd (by simpa using h) hl⟩

theorem read128 (o : Order) (b : Bytes) (hb : b.length = 16) : ∃ lo hi, (readUint128 o (Dec.new b .bin)).1 = .ok (lo, hi) ∧
    lo < 2 ^ 64 ∧ hi < 2 ^ 64 ∧ fixed o 16 (hi * 2 ^ 64 + lo) = b := by
  have hr : (Dec.new b .bin).rest = b := by simp
  rcases readUint128_eq (Dec.new_ok b .bin) o with ⟨h, _⟩ | ⟨lo, hi, tail, h1, h2, h3, h4⟩
  · rw [hr] at h; omega
  · refine ⟨lo, hi, by rw [h3], h1, h2, ?_⟩
    have h5 : (Dec.new b .bin).rest = fixed o 16 (hi * 2 ^ 64 + lo) ++ tail := by rw [h4, fixed128_eq o lo hi h1]; cases o <;> rfl
    rw [hr] at h5
    have := congrArg List.length h5
    rw [List.length_append, fixed_length, hb] at this
    have ht : tail = [] := List.eq_nil_of_length_eq_zero (by omega)
    rw [h5, ht, List.append_nil]

theorem fixed128_inj {o : Order} {a b c d : Nat} (ha : a < 2 ^ 64) (hb : b < 2 ^ 64) (hc : c < 2 ^ 64) (hd : d < 2 ^ 64)
    (h : fixed o 16 (b * 2 ^ 64 + a) = fixed o 16 (d * 2 ^ 64 + c)) : a = c ∧ b = d := by
  rw [fixed_eq, fixed_eq] at h
  have := putUint_inj (by rw [show (256 : Nat) ^ 16 = 2 ^ 128 by decide]; omega)
    (by rw [show (256 : Nat) ^ 16 = 2 ^ 128 by decide]; omega) h
  omega

theorem unmarshalDecimal_cases (j : U128) (s : Bytes) :
    (∀ i, j.unmarshalDecimal s = .ok i ↔ ∃ z, GoInteger s z ∧ z.natAbs < 2 ^ 128 ∧ i.Valid ∧ i.endianness = j.endianness ∧
      fixed (j.endianness.getD .le) 16 (i.hi * 2 ^ 64 + i.lo) = fixed .le 16 z.natAbs) ∧
    (j.unmarshalDecimal s = .panic ↔ ∃ z, GoInteger s z ∧ 2 ^ 128 ≤ z.natAbs) := by
  unfold U128.unmarshalDecimal
  simp only [← bigSetString_iff]
  cases hz : bigSetString s with
  | none => simp
  | some z =>
    simp only [Option.some.injEq]
    have h256 : (256 : Nat) ^ 16 = 2 ^ 128 := by decide
    by_cases hlt : z.natAbs < 2 ^ 128
    · have hf : bigFillBytes 16 z = .ok (putUint .be 16 z.natAbs) := by
        unfold bigFillBytes; rw [if_pos (by rw [h256]; exact hlt)]
      rw [hf]
      simp only []
      have hrev : reverseBytes (putUint .be 16 z.natAbs) = fixed .le 16 z.natAbs := by
        rw [reverseBytes_eq, fixed_eq]
        simp [putUint]
      rw [hrev]
      obtain ⟨lo, hi, h1, h2, h3, h4⟩ := read128 j.order (fixed .le 16 z.natAbs) (by simp)
      rw [h1]
      simp only [Res.ok.injEq, reduceCtorEq, false_iff]
      refine ⟨fun i => ⟨?_, ?_⟩, ?_⟩
      · rintro rfl
        exact ⟨z, rfl, hlt, ⟨h2, h3⟩, rfl, h4⟩
      · rintro ⟨z', rfl, -, hv, he, h5⟩
        obtain ⟨rfl, rfl⟩ := fixed128_inj h2 h3 hv.1 hv.2 (h4.trans h5.symm)
        cases i; cases he; rfl
      · rintro ⟨z', rfl, h⟩; omega
    · have hf : bigFillBytes 16 z = .panic := by
        unfold bigFillBytes; rw [if_neg (by rw [h256]; exact hlt)]
      rw [hf]
      simp only [reduceCtorEq, false_iff, true_iff]
      refine ⟨fun i => ?_, ⟨z, rfl, by omega⟩⟩
      rintro ⟨z', rfl, h, -⟩; exact hlt h

theorem not_goInteger_nil (z : Int) : ¬ GoInteger [] z := by
  rw [← bigSetString_iff]; simp [bigSetString, scanNat, scanDigits]

/-- C80: `Uint128.UnmarshalJSON` on every input. It succeeds exactly on `null`, which changes nothing, and on a JSON string
that is an integer text (`GoInteger`: sign, base prefix, underscores) of absolute value below 2^128 and does not start with
`0x`. The sixteen bytes of the absolute value, least significant first, are the bytes of the result in the receiver's byte
order. -/
theorem C80_accepted (j i : U128) (data : Bytes) : j.unmarshalJSON data = .ok i ↔
    (data = nullText ∧ i = j) ∨ ∃ s z, JsonString data s ∧ ¬ HexPrefixed s ∧ GoInteger s z ∧ z.natAbs < 2 ^ 128 ∧ i.Valid ∧
      i.endianness = j.endianness ∧ fixed (j.endianness.getD .le) 16 (i.hi * 2 ^ 64 + i.lo) = fixed .le 16 z.natAbs := by
  unfold U128.unmarshalJSON
  by_cases hn : data = nullText
  · rw [if_pos (by rw [hn]; rfl)]
    simp only [hn, true_and, Res.ok.injEq]
    constructor
    · intro h; exact .inl h.symm
    · rintro (h | ⟨s, z, hs, -, hz, -⟩)
      · exact h.symm
      · rw [← jsonString_iff] at hs
        have : jsonString nullText = .ok [] := by decide
        rw [this] at hs; cases hs
        exact absurd hz (not_goInteger_nil z)
  · rw [if_neg (by intro h; exact hn h)]
    simp only [hn, false_and, false_or, ← jsonString_iff]
    cases jsonString data with
    | err e => simp
    | panic => simp
    | ok s =>
      simp only [Res.ok.injEq]
      by_cases hp : HexPrefixed s
      · rw [if_pos ((HexPrefixed.iff s).2 hp)]
        constructor
        · intro h; exact absurd h ((unmarshalHex_cases j s).1 i)
        · rintro ⟨_, z, rfl, h, -⟩; exact absurd hp h
      · rw [if_neg (fun h => hp ((HexPrefixed.iff s).1 h)), (unmarshalDecimal_cases j s).1 i]
        constructor
        · rintro ⟨z, h⟩; exact ⟨s, z, rfl, hp, h⟩
        · rintro ⟨_, z, rfl, -, h⟩; exact ⟨z, h⟩

/-- C80: it panics exactly on integer texts from 2^128 on and on strings of `0x` with sixteen hex digits; on everything else
it returns an error. -/
theorem C80_panics (j : U128) (data : Bytes) : j.unmarshalJSON data = .panic ↔
    ∃ s, JsonString data s ∧ ((¬ HexPrefixed s ∧ ∃ z, GoInteger s z ∧ 2 ^ 128 ≤ z.natAbs) ∨
      (HexPrefixed s ∧ s.length = 18 ∧ ∃ t, HexText (s.drop 2) t)) := by
  unfold U128.unmarshalJSON
  by_cases hn : data = nullText
  · rw [if_pos (by rw [hn]; rfl)]
    simp only [reduceCtorEq, false_iff]
    rintro ⟨s, hs, h⟩
    rw [← jsonString_iff, hn] at hs
    have : jsonString nullText = .ok [] := by decide
    rw [this] at hs; cases hs
    rcases h with ⟨-, z, hz, -⟩ | ⟨⟨t, h | h⟩, -⟩
    · exact not_goInteger_nil z hz
    · cases h
    · cases h
  · rw [if_neg (by intro h; exact hn h)]
    simp only [← jsonString_iff]
    cases hj : jsonString data with
    | err e => simp
    | panic => exact absurd hj (jsonString_panic data)
    | ok s =>
      simp only [Res.ok.injEq]
      by_cases hp : HexPrefixed s
      · rw [if_pos ((HexPrefixed.iff s).2 hp), (unmarshalHex_cases j s).2]
        have hl : (s.drop 2).length = 16 ↔ s.length = 18 := by rw [List.length_drop]; omega
        rw [hl]
        constructor
        · intro h; exact ⟨s, rfl, .inr ⟨hp, h⟩⟩
        · rintro ⟨_, rfl, ⟨h, -⟩ | ⟨-, h⟩⟩
          · exact absurd hp h
          · exact h
      · rw [if_neg (fun h => hp ((HexPrefixed.iff s).1 h)), (unmarshalDecimal_cases j s).2]
        constructor
        · intro h; exact ⟨s, rfl, .inl ⟨hp, h⟩⟩
        · rintro ⟨_, rfl, ⟨-, h⟩ | ⟨h, -⟩⟩
          · exact h
          · exact absurd h hp

theorem Padded.trans {a b c : Bytes} (h1 : Padded a b) (h2 : Padded b c) : Padded a c := by
  obtain ⟨x, y, hx, hy, rfl⟩ := h1
  obtain ⟨u, v, hu, hv, rfl⟩ := h2
  refine ⟨x ++ u, v ++ y, ?_, ?_, by simp⟩
  · intro b hb; exact (List.mem_append.1 hb).elim (hx b) (hu b)
  · intro b hb; exact (List.mem_append.1 hb).elim (hv b) (hy b)

theorem trimJson_cases (data : Bytes) : (trimJson data = nullText ↔ Padded data nullText) ∧
    ∀ s, JsonString (trimJson data) s ↔ JsonString data s := by
  have hp := trimJson_padded data
  have hnull : Padded data nullText → trimJson data = nullText := fun h =>
    trimJson_of_padded h (by decide) (by decide) (by decide)
  have refl : ∀ t, Padded t t := fun t => ⟨[], [], by simp [Blank], by simp [Blank], by simp⟩
  refine ⟨⟨fun h => h ▸ hp, hnull⟩, fun s => ⟨?_, ?_⟩⟩
  · rintro (⟨h, rfl⟩ | ⟨body, h, hq⟩)
    · exact .inl ⟨Padded.trans hp h, rfl⟩
    · exact .inr ⟨body, Padded.trans hp h, hq⟩
  · rintro (⟨h, rfl⟩ | ⟨body, h, hq⟩)
    · rw [hnull h]; exact .inl ⟨refl _, rfl⟩
    · have : trimJson data = 34 :: body := by
        refine trimJson_of_padded h ?_ ?_ (by simp)
        · intro b hb; cases hb; rfl
        · intro b hb
          rw [List.getLast?_cons, Quoted.last hq] at hb
          cases hb; rfl
      rw [this]
      exact .inr ⟨body, refl _, hq⟩

/-- C80: the same for `Int128` and `Float128`: the result is the absolute value, whatever the receiver held before; null
makes it zero. -/
theorem C80_int128 (old i : U128) (data : Bytes) : int128UnmarshalJSON old data = .ok i ↔
    i.endianness = none ∧ i.Valid ∧ ((Padded data nullText ∧ i.lo = 0 ∧ i.hi = 0) ∨
      ∃ s z, JsonString data s ∧ ¬ HexPrefixed s ∧ GoInteger s z ∧ i.hi * 2 ^ 64 + i.lo = z.natAbs) := by
  unfold int128UnmarshalJSON
  rw [C80_accepted, (trimJson_cases data).1]
  simp only [(trimJson_cases data).2, Option.getD_none]
  have hfix : i.Valid → ∀ m, m < 2 ^ 128 → (fixed .le 16 (i.hi * 2 ^ 64 + i.lo) = fixed .le 16 m ↔ i.hi * 2 ^ 64 + i.lo = m) := by
    intro hv m hm
    have := hv.1
    have := hv.2
    constructor
    · intro h
      rw [fixed_eq, fixed_eq] at h
      exact putUint_inj (by rw [show (256 : Nat) ^ 16 = 2 ^ 128 by decide]; omega)
        (by rw [show (256 : Nat) ^ 16 = 2 ^ 128 by decide]; omega) h
    · intro h; rw [h]
  constructor
  · rintro (⟨h, rfl⟩ | ⟨s, z, h1, h2, h3, h4, h5, h6, h7⟩)
    · exact ⟨rfl, ⟨by decide, by decide⟩, .inl ⟨h, rfl, rfl⟩⟩
    · exact ⟨h6, h5, .inr ⟨s, z, h1, h2, h3, (hfix h5 _ h4).1 h7⟩⟩
  · rintro ⟨h1, h2, ⟨h3, h4, h5⟩ | ⟨s, z, h3, h4, h5, h6⟩⟩
    · refine .inl ⟨h3, ?_⟩
      cases i; cases h1; cases h4; cases h5; rfl
    · have hlt : z.natAbs < 2 ^ 128 := by
        have := h2.1
        have := h2.2
        omega
      exact .inr ⟨s, z, h3, h4, h5, hlt, h2, h1, (hfix h2 _ hlt).2 h6⟩

/-- Underscores, base prefixes and signs: `-0x1_0` is read as 16 (the `0x` is behind the sign), `0b101` as 5, `0_17` as 15. -/
example : GoInteger "-0x1_0".toUTF8.toList (-16) ∧ GoInteger "0b101".toUTF8.toList 5 ∧ GoInteger "0_17".toUTF8.toList 15 ∧
    ¬ GoInteger "1__0".toUTF8.toList 10 ∧ HexPrefixed "0x10".toUTF8.toList := by
  simp only [← bigSetString_iff, ← HexPrefixed.iff]; decide +kernel
example : (⟨9, 9, none⟩ : U128).unmarshalJSON "\"-0x1_0\"".toUTF8.toList = .ok ⟨16, 0, none⟩ ∧
    (⟨9, 9, none⟩ : U128).unmarshalJSON "null".toUTF8.toList = .ok ⟨9, 9, none⟩ ∧
    int128UnmarshalJSON ⟨9, 9, none⟩ " null".toUTF8.toList = .ok ⟨0, 0, none⟩ ∧
    (⟨9, 9, none⟩ : U128).unmarshalJSON "\"0x0123456789abcdef\"".toUTF8.toList = .panic ∧
    (⟨9, 9, none⟩ : U128).unmarshalJSON "12".toUTF8.toList = .err .parse := by decide +kernel

end Verif.Props
