import Verif.Model.JsonInto
import Verif.Props.JsonText
/-!
# What the receiver of `UnmarshalJSON` holds (C91)
-/
set_option linter.unusedSimpArgs false
namespace Verif.Props
open Verif Verif.Spec

/-- The call stores what it is given and succeeds, or leaves the receiver alone. -/
def AllOrNothing {σ : Type} (call : M σ Unit) (r : Res σ) (old : σ) : Prop :=
  match r with
  | .ok x => call old = (.ok (), x)
  | .err e => call old = (.err e, old)
  | .panic => call old = (.panic, old)

theorem assign_lift {σ : Type} (r : Res σ) (old : σ) : AllOrNothing (do let v ← M.lift r; M.assign v) r old := by
  cases r <;> rfl

/-- Texts in quotes and without. -/
theorem quoted_cases {P : Bytes → Prop} (h0 : P []) (h1 : ∀ t, P (34 :: t)) (h2 : ∀ b t, b ≠ 34 → P (b :: t)) : ∀ data, P data
  | [] => h0
  | b :: t => if h : b = 34 then h ▸ h1 t else h2 b t h

theorem C91_int64_partial (data : Bytes) (old : Int) : AllOrNothing (int64Into data) (int64UnmarshalJSON data) old := by
  refine quoted_cases (P := fun data => AllOrNothing (int64Into data) (int64UnmarshalJSON data) old) rfl
    (fun t => by
      simp only [int64Into, int64UnmarshalJSON]
      cases jsonString (34 :: t) with
      | ok s => exact assign_lift (parseInt64 s) old
      | err e => rfl
      | panic => rfl) (fun b t hb => ?_) data
  have h1 : int64UnmarshalJSON (b :: t) = jsonInt64 (b :: t) := by
    unfold int64UnmarshalJSON; split
    · contradiction
    · rename_i h; cases h; contradiction
    · rfl
  have h2 : int64Into (b :: t) = (do let v ← M.lift (jsonInt64 (b :: t)); M.assign v) := by
    unfold int64Into; split
    · contradiction
    · rename_i h; cases h; contradiction
    · rfl
  rw [h1, h2]
  exact assign_lift _ old

/-- `"7"` is stored, `"7x"` leaves the 5. -/
example : int64Into [34, 55, 34] 5 = (.ok (), 7) ∧ int64Into [34, 55, 120, 34] 5 = (.err .parse, 5) := by decide +kernel

theorem C91_uint64_partial (data : Bytes) (old : Nat) : AllOrNothing (uint64Into data) (uint64UnmarshalJSON data) old := by
  refine quoted_cases (P := fun data => AllOrNothing (uint64Into data) (uint64UnmarshalJSON data) old) rfl
    (fun t => by
      simp only [uint64Into, uint64UnmarshalJSON]
      cases jsonString (34 :: t) with
      | ok s => exact assign_lift (parseUint64 s) old
      | err e => rfl
      | panic => rfl) (fun b t hb => ?_) data
  have h1 : uint64UnmarshalJSON (b :: t) = jsonUint64 (b :: t) := by
    unfold uint64UnmarshalJSON; split
    · contradiction
    · rename_i h; cases h; contradiction
    · rfl
  have h2 : uint64Into (b :: t) = (do let v ← M.lift (jsonUint64 (b :: t)); M.assign v) := by
    unfold uint64Into; split
    · contradiction
    · rename_i h; cases h; contradiction
    · rfl
  rw [h1, h2]
  exact assign_lift _ old

/-- `-1` leaves the 5. -/
example : uint64Into [45, 49] 5 = (.err .parse, 5) := by decide +kernel

theorem C91_float_partial (data : Bytes) (old : Nat) :
    AllOrNothing (jsonFloat64Into data) (jsonFloat64UnmarshalJSON data) old := by
  refine quoted_cases (P := fun data => AllOrNothing (jsonFloat64Into data) (jsonFloat64UnmarshalJSON data) old) rfl
    (fun t => by
      simp only [jsonFloat64Into, jsonFloat64UnmarshalJSON]
      cases jsonString (34 :: t) with
      | ok s => exact assign_lift (parseFloat s) old
      | err e => rfl
      | panic => rfl) (fun b t hb => ?_) data
  have h1 : jsonFloat64UnmarshalJSON (b :: t) = jsonFloat (b :: t) := by
    unfold jsonFloat64UnmarshalJSON; split
    · contradiction
    · rename_i h; cases h; contradiction
    · rfl
  have h2 : jsonFloat64Into (b :: t) = (do let v ← M.lift (jsonFloat (b :: t)); M.assign v) := by
    unfold jsonFloat64Into; split
    · contradiction
    · rename_i h; cases h; contradiction
    · rfl
  rw [h1, h2]
  exact assign_lift _ old

theorem C91_bool_partial (data : Bytes) (old : Bool) : AllOrNothing (boolInto data) (boolUnmarshalJSON data) old := by
  unfold boolInto boolUnmarshalJSON
  cases jsonInt64 data with
  | ok n => rfl
  | err e => exact assign_lift _ old
  | panic => exact assign_lift _ old

/-- `2` is stored as true, `[` leaves the true. -/
example : boolInto [50] false = (.ok (), true) ∧ boolInto [91] true = (.err .parse, true) := by decide +kernel

/-- `Uint128` in decimal. -/
theorem C91_decimal_partial (s : Bytes) (old : U128) : AllOrNothing (u128DecimalInto s) (old.unmarshalDecimal s) old := by
  unfold u128DecimalInto U128.unmarshalDecimal
  cases bigSetString s with
  | none => rfl
  | some z =>
    simp only []
    cases bigFillBytes 16 z with
    | ok oo =>
      simp only [M.bind_apply, M.lift_apply]
      cases h : (readUint128 old.order (Dec.new (reverseBytes oo) .bin)).1 with
      | ok r => simp [AllOrNothing, M.bind_apply, M.lift_apply, h]
      | err e => simp [AllOrNothing, M.bind_apply, M.lift_apply, h]
      | panic => simp [AllOrNothing, M.bind_apply, M.lift_apply, h]
    | err e => rfl
    | panic => rfl

/-- `Uint128` after `0x`: sixteen digits are stored in one half, then the call panics. -/
theorem hexInto_cases (s : Bytes) (old : U128) :
    ((¬ ((s.drop 2).length = 16 ∧ ∃ t, HexText (s.drop 2) t)) ∧ AllOrNothing (u128HexInto s) (old.unmarshalHex s) old) ∨
    (old.unmarshalHex s = .panic ∧ (s.drop 2).length = 16 ∧ ∃ x, x < 2 ^ 64 ∧ HexText (s.drop 2) (fixed old.order 8 x) ∧
      u128HexInto s old = (.panic, match old.order with
        | .le => { old with lo := x }
        | .be => { old with hi := x })) := by
  have hc := (unmarshalHex_cases old s).2
  unfold u128HexInto
  unfold U128.unmarshalHex at hc ⊢
  simp only [] at hc ⊢
  by_cases hl : (s.drop 2).length = 16
  · rw [if_neg (by simpa using hl)] at hc ⊢
    rw [if_neg (by simpa using hl)]
    cases hd : hexDecode (s.drop 2) with
    | ok d =>
      right
      rw [hd] at hc
      have ht := (hexDecode_iff _ _).1 hd
      have hlen := HexText.length ht
      rw [hl] at hlen
      have hp := hc.2 ⟨hl, d, ht⟩
      refine ⟨hp, hl, ?_⟩
      obtain ⟨x, h1, h2, h3⟩ := getUint_ok old.order 8 (d.take 8) (by rw [List.length_take]; omega)
      have h4 : getUint old.order 8 (d.drop 8) = .panic := getUint_short _ _ _ (by rw [List.length_drop]; omega)
      refine ⟨x, h2, ?_, ?_⟩
      · rw [fixed_eq, h3, List.take_take, List.take_of_length_le (by omega)]; exact ht
      · cases ho : old.order <;> rw [ho] at h1 h4 <;>
          simp [M.bind_apply, M.lift_apply, M.get_apply, M.modify_apply, ho, h1, h4]
    | err e =>
      left
      refine ⟨?_, ?_⟩
      · rintro ⟨-, t, ht⟩
        rw [(hexDecode_iff _ _).2 ht] at hd
        cases hd
      · simp [AllOrNothing, M.bind_apply, M.lift_apply]
    | panic => exact absurd hd (hexDecode_ne_panic _)
  · left
    rw [if_pos (by simpa using hl), if_pos (by simpa using hl)]
    exact ⟨fun h => hl h.1, rfl⟩

/-- `Uint128`: all or nothing, except for the strings of `0x` with sixteen hex digits. -/
theorem C91_uint128_partial (data : Bytes) (old : U128)
    (h : ¬ ∃ s t, JsonString data s ∧ HexPrefixed s ∧ s.length = 18 ∧ HexText (s.drop 2) t) :
    AllOrNothing (uint128Into data) (old.unmarshalJSON data) old := by
  unfold uint128Into U128.unmarshalJSON
  by_cases hn : data = jsonNull
  · rw [if_pos hn, if_pos hn]; rfl
  · rw [if_neg hn, if_neg hn]
    cases hj : jsonString data with
    | err e => rfl
    | panic => rfl
    | ok s =>
      have hs : ∀ f g : M U128 Unit, (do
          let s ← M.lift (Res.ok s)
          if s.take 2 = [48, 120] ∨ s.take 2 = [48, 88] then u128HexInto s else u128DecimalInto s) =
        (if s.take 2 = [48, 120] ∨ s.take 2 = [48, 88] then u128HexInto s else u128DecimalInto s) := fun _ _ => rfl
      rw [hs (pure ()) (pure ())]
      simp only []
      by_cases hp : s.take 2 = [48, 120] ∨ s.take 2 = [48, 88]
      · rw [if_pos hp, if_pos hp]
        rcases hexInto_cases s old with ⟨-, h1⟩ | ⟨-, h1, x, -, h2, -⟩
        · exact h1
        · refine absurd ⟨s, _, (jsonString_iff data s).1 hj, (HexPrefixed.iff s).1 hp, ?_, h2⟩ h
          rw [List.length_drop] at h1; omega
      · rw [if_neg hp, if_neg hp]
        exact C91_decimal_partial s old

/-- `"9x"` leaves the 7 and the 8. -/
example : uint128Into [34, 57, 120, 34] ⟨7, 8, some .be⟩ = (.err .parse, ⟨7, 8, some .be⟩) := by decide +kernel

/-- C91 is false of the code: `Uint128` has stored sixteen hex digits in one of its halves when it panics. -/
theorem C91_violated_uint128 (data s b : Bytes) (old : U128) (hs : JsonString data s) (hp : HexPrefixed s) (hl : s.length = 18)
    (hb : HexText (s.drop 2) b) : ∃ x, x < 2 ^ 64 ∧ b = fixed (old.endianness.getD .le) 8 x ∧
      uint128Into data old = (.panic, if old.endianness = some .be then { old with hi := x } else { old with lo := x }) := by
  have hn : data ≠ jsonNull := by
    rintro rfl
    rw [← jsonString_iff] at hs
    have : jsonString jsonNull = .ok [] := by decide
    rw [this] at hs; cases hs; simp at hl
  rcases hexInto_cases s old with ⟨h1, -⟩ | ⟨-, -, x, h1, h2, h3⟩
  · exact absurd ⟨by rw [List.length_drop]; omega, b, hb⟩ h1
  · refine ⟨x, h1, ?_, ?_⟩
    · have e1 := (hexDecode_iff _ _).2 hb
      rw [(hexDecode_iff _ _).2 h2] at e1
      cases e1; rfl
    · unfold uint128Into
      rw [if_neg hn, (jsonString_iff data s).2 hs]
      show (if s.take 2 = [48, 120] ∨ s.take 2 = [48, 88] then u128HexInto s else u128DecimalInto s) old = _
      rw [if_pos ((HexPrefixed.iff s).2 hp), h3]
      unfold U128.order
      rcases old.endianness with _ | (_ | _) <;> simp

/-- `"0x0100000000000000"`, little endian: `Lo` is 1 after the panic. -/
example : uint128Into [34, 48, 120, 48, 49, 48, 48, 48, 48, 48, 48, 48, 48, 48, 48, 48, 48, 48, 48, 34] ⟨7, 8, none⟩ =
    (.panic, ⟨1, 8, none⟩) := by decide +kernel

/-- `Int128` and `Float128` go through a new `Uint128`: all or nothing, also in this case. -/
theorem C91_int128_partial (data : Bytes) (old : U128) :
    AllOrNothing (int128Into data) (int128UnmarshalJSON old data) old := by
  have key : ∀ d z, (match uint128Into d z with
      | (.ok _, el) => Res.ok el
      | (.err e, _) => .err e
      | (.panic, _) => .panic) = z.unmarshalJSON d := by
    intro d z
    by_cases h : ∃ s t, JsonString d s ∧ HexPrefixed s ∧ s.length = 18 ∧ HexText (s.drop 2) t
    · obtain ⟨s, t, h1, h2, h3, h4⟩ := h
      obtain ⟨x, -, -, hx⟩ := C91_violated_uint128 d s t z h1 h2 h3 h4
      rw [hx, (C80_panics z d).2 ⟨s, h1, .inr ⟨h2, h3, t, h4⟩⟩]
    · have := C91_uint128_partial d z h
      unfold AllOrNothing at this
      cases hu : z.unmarshalJSON d <;> rw [hu] at this <;> simp only [] at this <;> rw [this]
  have hi : int128Into data = (do let el ← M.lift (int128UnmarshalJSON old data); M.assign el) :=
    congrArg (fun r => (do let el ← M.lift r; M.assign el : M U128 Unit)) (key (trimJson data) ⟨0, 0, none⟩)
  rw [hi]
  exact assign_lift _ old

example : int128Into [34, 48, 120, 48, 49, 48, 48, 48, 48, 48, 48, 48, 48, 48, 48, 48, 48, 48, 48, 34] ⟨7, 8, none⟩ =
    (.panic, ⟨7, 8, none⟩) := by decide +kernel

/-! ### HexBytes -/

/-- The bytes decoded before the first pair that is not two hex digits. -/
theorem hexDecoded_spec : ∀ s, ∃ good rest, s = good ++ rest ∧ HexText good (hexDecoded s) ∧
    (hexDecode s = .ok (hexDecoded s) ↔ rest = []) ∧
    ¬ ∃ a b x y r, rest = a :: b :: r ∧ HexDig a x ∧ HexDig b y := by
  intro s
  induction s using hexDecoded.induct with
  | case1 a b rest x y hy hx ih =>
    obtain ⟨good, r, h1, h2, h3, h4⟩ := ih
    refine ⟨a :: b :: good, r, by simp [h1], ?_, ?_, h4⟩
    · rw [hexDecoded, hx, hy]
      exact .cons ((hexValue_iff _ _).1 hx) ((hexValue_iff _ _).1 hy) h2
    · rw [← h3, hexDecoded, hexDecode]
      simp only [hx, hy]
      cases hexDecode rest <;> simp
  | case2 a b rest hn =>
    refine ⟨[], a :: b :: rest, rfl, ?_, ?_, ?_⟩
    · rw [hexDecoded]
      split
      · rename_i x y hx hy; exact absurd hy (hn x y hx)
      · exact .nil
    · simp only [reduceCtorEq, iff_false]
      rw [hexDecode]
      split
      · rename_i x y hx hy; exact absurd hy (hn x y hx)
      · simp
    · rintro ⟨a', b', x, y, r, h, h1, h2⟩
      cases h
      exact hn x y ((hexValue_iff _ _).2 h1) ((hexValue_iff _ _).2 h2)
  | case3 s hs =>
    match s with
    | [] => exact ⟨[], [], rfl, .nil, by simp [hexDecode, hexDecoded], by simp⟩
    | [a] => exact ⟨[], [a], rfl, .nil, by simp [hexDecode], by simp⟩
    | a :: b :: r => exact absurd rfl (hs a b r)

theorem hexDecoded_ok : ∀ s t, hexDecode s = .ok t → hexDecoded s = t
  | [], t, h => by simp [hexDecode] at h; simp [hexDecoded, h]
  | [a], t, h => by simp [hexDecode] at h
  | a :: b :: rest, t, h => by
    rw [hexDecode] at h
    rw [hexDecoded]
    cases hx : hexValue a <;> cases hy : hexValue b <;> simp only [hx, hy] at h ⊢ <;> try (cases h; done)
    cases hr : hexDecode rest <;> simp only [hr] at h <;> try (cases h; done)
    rw [hexDecoded_ok rest _ hr]
    cases h; rfl

/-- `HexBytes`: a text that is no JSON string leaves it alone; otherwise it holds what the pairs of hex digits at the beginning of
the string spell, and the call succeeds exactly if that is all. -/
theorem C91_hex_partial (data : Bytes) (old : Option Bytes) :
    ((¬ ∃ s, JsonString data s) ∧ ∃ e, hexBytesInto data old = (.err e, old)) ∨
    ∃ s good rest t, JsonString data s ∧ s = good ++ rest ∧ HexText good t ∧
      (¬ ∃ a b x y r, rest = a :: b :: r ∧ HexDig a x ∧ HexDig b y) ∧
      (hexBytesInto data old).2 = some t ∧
      (rest = [] → (hexBytesInto data old).1 = .ok ()) ∧ (rest ≠ [] → ∃ e, (hexBytesInto data old).1 = .err e) := by
  unfold hexBytesInto
  cases hj : jsonString data with
  | err e =>
    left
    refine ⟨?_, e, rfl⟩
    rintro ⟨s, hs⟩
    rw [(jsonString_iff data s).2 hs] at hj
    cases hj
  | panic => exact absurd hj (jsonString_panic data)
  | ok s =>
    right
    obtain ⟨good, rest, h1, h2, h3, h4⟩ := hexDecoded_spec s
    refine ⟨s, good, rest, hexDecoded s, (jsonString_iff data s).1 hj, h1, h2, h4, ?_, ?_, ?_⟩
    · cases hd : hexDecode s <;> simp [M.bind_apply, M.lift_apply, M.assign, hd]
    · intro h
      simp [M.bind_apply, M.lift_apply, M.assign, h3.2 h]
    · intro h
      cases hd : hexDecode s with
      | ok t =>
        have := (hexDecode_iff _ _).1 hd
        exfalso
        apply h
        apply h3.1
        rw [hd, hexDecoded_ok s t hd]
      | err e => exact ⟨e, by simp [M.bind_apply, M.lift_apply, M.assign, hd]⟩
      | panic => exact absurd hd (hexDecode_ne_panic s)

/-- C91 is false of the code: `HexBytes` holds the beginning of a text that was refused. -/
theorem C91_violated (old : Option Bytes) :
    hexBytesInto [34, 48, 49, 48, 50, 122, 122, 34] old = (.err .parse, some [1, 2]) := rfl

end Verif.Props
