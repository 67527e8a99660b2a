import Verif.Spec.Alike
import Verif.Proofs.Alike
import Verif.Model.Interface
/-!
# C93: when the choice of the encoding makes no difference
-/
namespace Verif.Props
open Spec

/-- The same result, the same `Write` calls on the same writer, the same count. -/
theorem C93_encode (e e' : Encoding) (he : e.valid = true) (he' : e'.valid = true) (t : Ty) (ht : alike e e' t false = true) (v : Val)
    (sink : Sink) :
    (encode t v (Enc.new e sink)).1 = (encode t v (Enc.new e' sink)).1 ∧
    (encode t v (Enc.new e sink)).2.log = (encode t v (Enc.new e' sink)).2.log ∧
    (encode t v (Enc.new e sink)).2.written = (encode t v (Enc.new e' sink)).2.written := by
  have h1 : e ≠ .other := by rintro rfl; cases he
  have h2 : e' ≠ .other := by rintro rfl; cases he'
  have key := ((setCurE_alike .le).bind fun _ => encCore_alike he he' t false {} v ht (by simp) fun _ => rfl)
    (Enc.new e sink) (Enc.new e' sink) ⟨rfl, rfl, rfl, rfl, rfl, rfl⟩
  simp only [encode, M.bind_apply, M.get_apply, Enc.new, if_neg h1, if_neg h2]
  simp only [M.bind_apply, Enc.new] at key
  exact ⟨key.1, key.2.log.symm, key.2.count.symm⟩

/-- The same result from the same bytes. -/
theorem C93_decode (e e' : Encoding) (he : e.valid = true) (he' : e'.valid = true) (t : Ty) (ht : alike e e' t false = true) (old : Val)
    (b : Bytes) :
    (decode t old (Dec.new b e)).1 = (decode t old (Dec.new b e')).1 ∧
    (decode t old (Dec.new b e)).2.pos = (decode t old (Dec.new b e')).2.pos := by
  have h1 : e ≠ .other := by rintro rfl; cases he
  have h2 : e' ≠ .other := by rintro rfl; cases he'
  have key := (core_alike he he' t false {} old ht (by simp) fun _ => rfl)
    (setCurD .le (Dec.new b e)).2 (setCurD .le (Dec.new b e')).2 ⟨rfl, rfl, rfl, rfl, rfl, fun _ => rfl⟩
  have h3 : ∀ x : Encoding, x ≠ .other → decode t old (Dec.new b x) = decCore x t {} old (setCurD .le (Dec.new b x)).2 := by
    intro x hx
    simp only [decode, M.bind_apply, M.get_apply, Dec.new, if_neg hx]
    rfl
  rw [h3 e h1, h3 e' h2]
  exact ⟨key.1, key.2.pos.symm⟩

/-- In terms of `Marshal` and `Unmarshal`. -/
theorem C93_interchange (e e' : Encoding) (he : e.valid = true) (he' : e'.valid = true) (t : Ty) (ht : alike e e' t false = true) :
    (∀ v, marshal e t v = marshal e' t v) ∧ ∀ old b, unmarshal e t old b = unmarshal e' t old b := by
  refine ⟨fun v => ?_, fun old b => (C93_decode e e' he he' t ht old b).1⟩
  have h := C93_encode e e' he he' t ht v okSink
  simp only [marshal, Enc.out]
  rw [h.1, h.2.1]

/-! ### each exclusion is needed -/

/-- Some value is encoded differently, or some bytes are decoded differently into a new variable. -/
def Differ (e e' : Encoding) (t : Ty) : Prop :=
  (∃ v, marshal e t v ≠ marshal e' t v) ∨ ∃ b, unmarshal e t t.zero b ≠ unmarshal e' t t.zero b

theorem Differ.symm {e e' : Encoding} {t : Ty} (h : Differ e e' t) : Differ e' e t :=
  h.imp (fun ⟨v, h⟩ => ⟨v, h.symm⟩) fun ⟨b, h⟩ => ⟨b, h.symm⟩

/-- No type that differs is declared alike. -/
theorem C93_sound (e e' : Encoding) (he : e.valid = true) (he' : e'.valid = true) (t : Ty) (h : Differ e e' t) :
    alike e e' t false = false := by
  cases ht : alike e e' t false with
  | false => rfl
  | true =>
    have key := C93_interchange e e' he he' t ht
    rcases h with ⟨v, h⟩ | ⟨b, h⟩
    · exact absurd (key.1 v) h
    · exact absurd (key.2 _ b) h

/-- A struct with one field. -/
def one (tag : FieldTag) (t : Ty) : Ty := .struct (.cons { name := [65], tag } t .nil)

private theorem enc_ne {e e' : Encoding} {t : Ty} {v : Val} (h : (marshal e t v).2 ≠ (marshal e' t v).2) : Differ e e' t :=
  .inl ⟨v, fun h' => h (by rw [h'])⟩

private theorem dec_ne {e e' : Encoding} {t : Ty} {b : Bytes} {r r' : Res Val} (h : unmarshal e t t.zero b = r)
    (h' : unmarshal e' t t.zero b = r') (hr : r ≠ r') : Differ e e' t :=
  .inr ⟨b, by rw [h, h']; exact hr⟩

/-- Types with a length prefix: any two encodings differ. -/
theorem C93_lengths_needed (e e' : Encoding) (he : e.valid = true) (he' : e'.valid = true) (hne : e ≠ e') :
    Differ e e' .str ∧ Differ e e' (.slice .bool) ∧ Differ e e' (.map .bool .bool) ∧ Differ e e' (.lib .safeString) ∧
    Differ e e' (.lib .hexBytes) := by
  have h1 : Differ .bin .borsh .str ∧ Differ .bin .borsh (.slice .bool) ∧ Differ .bin .borsh (.map .bool .bool) ∧
      Differ .bin .borsh (.lib .safeString) ∧ Differ .bin .borsh (.lib .hexBytes) :=
     ⟨enc_ne (v := .str [7]) (by decide +kernel),
      enc_ne (v := .seq (some [.bool true])) (by decide +kernel),
      enc_ne (v := .map (some [(.bool true, .bool true)])) (by decide +kernel),
      enc_ne (v := .str [7]) (by decide +kernel),
      enc_ne (v := .bytes (some [7])) (by decide +kernel)⟩
  have h2 : Differ .compactU16 .borsh .str ∧ Differ .compactU16 .borsh (.slice .bool) ∧ Differ .compactU16 .borsh (.map .bool .bool) ∧
      Differ .compactU16 .borsh (.lib .safeString) ∧ Differ .compactU16 .borsh (.lib .hexBytes) :=
     ⟨enc_ne (v := .str [7]) (by decide +kernel),
      enc_ne (v := .seq (some [.bool true])) (by decide +kernel),
      enc_ne (v := .map (some [(.bool true, .bool true)])) (by decide +kernel),
      enc_ne (v := .str [7]) (by decide +kernel),
      enc_ne (v := .bytes (some [7])) (by decide +kernel)⟩
  have h3 : Differ .bin .compactU16 .str ∧ Differ .bin .compactU16 (.slice .bool) ∧ Differ .bin .compactU16 (.map .bool .bool) ∧
      Differ .bin .compactU16 (.lib .safeString) ∧ Differ .bin .compactU16 (.lib .hexBytes) := by
    refine
     ⟨enc_ne (v := .str [7]) (by decide +kernel),
      dec_ne (b := [0x80, 0]) (r := .ok (.seq (some []))) (r' := .err .alias) rfl rfl (by simp),
      dec_ne (b := [0x80, 0]) (r := .ok (.map none)) (r' := .err .alias) rfl rfl (by simp),
      dec_ne (b := [0x80, 0]) (r := .ok (.str [])) (r' := .err .alias) rfl rfl (by simp),
      dec_ne (b := [0x80, 0]) (r := .ok (.bytes (some []))) (r' := .err .alias) rfl rfl (by simp)⟩
  have sw : ∀ {x y : Encoding}, (Differ x y .str ∧ Differ x y (.slice .bool) ∧ Differ x y (.map .bool .bool) ∧
      Differ x y (.lib .safeString) ∧ Differ x y (.lib .hexBytes)) → (Differ y x .str ∧ Differ y x (.slice .bool) ∧
      Differ y x (.map .bool .bool) ∧ Differ y x (.lib .safeString) ∧ Differ y x (.lib .hexBytes)) :=
    fun ⟨a, b, c, d, f⟩ => ⟨a.symm, b.symm, c.symm, d.symm, f.symm⟩
  cases e <;> cases e' <;> first
    | exact absurd rfl hne
    | exact h1
    | exact h2
    | exact h3
    | exact sw h1
    | exact sw h2
    | exact sw h3
    | (cases he; done)
    | (cases he'; done)

/-- Optional fields: Bin differs from the others. -/
theorem C93_option_needed (e : Encoding) (he : e.valid = true) (hne : e ≠ .bin) : Differ .bin e (one { option := true } .bool) := by
  cases e with
  | bin => exact absurd rfl hne
  | borsh => exact enc_ne (v := .struct [.bool true]) (by decide +kernel)
  | compactU16 => exact enc_ne (v := .struct [.bool true]) (by decide +kernel)
  | other => cases he

/-- A count and the slice it announces. -/
def counted : Ty :=
  .struct (.cons { name := [65], tag := { sizeOf := [66] } } (.uint .w8 false) (.cons { name := [66] } (.slice .bool) .nil))

/-- An enum with two variants. -/
def choice : Ty :=
  .struct (.cons { name := [65], tag := { isEnum := true } } .borshEnum (.cons { name := [66] } .bool (.cons { name := [67] } .bool .nil)))

/-- Borsh differs from the others: floats (NaN), nil pointers, announced slices (an empty one is nil), enums, C-options, byte orders,
optional fields of library types, and counts of a library type that is not a number. -/
theorem C93_borsh_needed (e : Encoding) (he : e.valid = true) (hne : e ≠ .borsh) :
    Differ e .borsh .f64 ∧ Differ e .borsh .f32 ∧ Differ e .borsh (.lib .jsonFloat64) ∧ Differ e .borsh (.ptr .bool) ∧
    Differ e .borsh counted ∧ Differ e .borsh choice ∧ Differ e .borsh (one { coption := true } .bool) ∧
    Differ e .borsh (one { order := .be } (.uint .w16 false)) ∧ Differ e .borsh (one { option := true } (.lib .bool)) ∧
    Differ e .borsh (one { sizeOf := [66] } (.lib .bool)) := by
  cases e with
  | other => cases he
  | borsh => exact absurd rfl hne
  | bin =>
    refine
     ⟨enc_ne (v := .float 0x7ff8000000000000) (by decide +kernel),
      dec_ne (b := [0, 0, 0xc0, 0x7f]) (r := .ok (.float 0x7fc00000)) (r' := .err .nan) rfl rfl (by simp),
      enc_ne (v := .float 0x7ff8000000000000) (by decide +kernel),
      enc_ne (v := .ptr none) (by decide +kernel),
      dec_ne (b := [0]) (r := .ok (.struct [.uint 0, .seq (some [])])) (r' := .ok (.struct [.uint 0, .seq none])) rfl rfl (by simp),
      enc_ne (v := .struct [.uint 0, .bool true, .bool true]) (by decide +kernel),
      enc_ne (v := .struct [.bool true]) (by decide +kernel),
      enc_ne (v := .struct [.uint 1]) (by decide +kernel),
      dec_ne (b := [1, 0]) (r := .panic) (r' := .ok (.struct [.bool true])) rfl rfl (by simp),
      dec_ne (b := [1]) (r := .panic) (r' := .ok (.struct [.bool true])) rfl rfl (by simp)⟩
  | compactU16 =>
    refine
     ⟨enc_ne (v := .float 0x7ff8000000000000) (by decide +kernel),
      dec_ne (b := [0, 0, 0xc0, 0x7f]) (r := .ok (.float 0x7fc00000)) (r' := .err .nan) rfl rfl (by simp),
      enc_ne (v := .float 0x7ff8000000000000) (by decide +kernel),
      enc_ne (v := .ptr none) (by decide +kernel),
      dec_ne (b := [0]) (r := .ok (.struct [.uint 0, .seq (some [])])) (r' := .ok (.struct [.uint 0, .seq none])) rfl rfl (by simp),
      enc_ne (v := .struct [.uint 0, .bool true, .bool true]) (by decide +kernel),
      enc_ne (v := .struct [.bool true]) (by decide +kernel),
      enc_ne (v := .struct [.uint 1]) (by decide +kernel),
      dec_ne (b := [1, 0]) (r := .panic) (r' := .ok (.struct [.bool true])) rfl rfl (by simp),
      dec_ne (b := [1]) (r := .panic) (r' := .ok (.struct [.bool true])) rfl rfl (by simp)⟩

/-! ### examples -/

/-- A public key, an amount, a flag and two varints. -/
def account : Ty :=
  .struct (.cons { name := [75] } (.array 4 (.uint .w8 false)) (.cons { name := [65] } (.lib .uint128)
    (.cons { name := [70] } .bool (.cons { name := [86] } (.array 2 (.lib .varint32)) .nil))))

def accountVal : Val := .struct [.arr [.uint 1, .uint 2, .uint 3, .uint 4], .u128 5 6 none, .bool true, .arr [.int (-3), .int 300]]

example : alike .bin .borsh account false = true ∧ alike .borsh .compactU16 account false = true := by decide

example : marshal .borsh account accountVal =
    (.ok (), [1, 2, 3, 4, 5, 0, 0, 0, 0, 0, 0, 0, 6, 0, 0, 0, 0, 0, 0, 0, 1, 5, 216, 4]) := by decide +kernel

example : marshal .bin account accountVal =
    (.ok (), [1, 2, 3, 4, 5, 0, 0, 0, 0, 0, 0, 0, 6, 0, 0, 0, 0, 0, 0, 0, 1, 5, 216, 4]) := by
  rw [(C93_interchange .bin .borsh rfl rfl account (by decide)).1]; decide +kernel

/-- Without Borsh also floats, pointers and announced slices. -/
def record : Ty :=
  .struct (.cons { name := [70], tag := { order := .be } } .f64 (.cons { name := [80] } (.ptr .f32)
    (.cons { name := [65], tag := { sizeOf := [66] } } (.uint .w8 false) (.cons { name := [66] } (.slice (.lib .varint32)) .nil))))

example : alike .bin .compactU16 record false = true ∧ alike .bin .borsh record false = false := by decide

example : marshal .bin record (.struct [.float 0x7ff8000000000000, .ptr none, .uint 2, .seq (some [.int 7, .int 300])]) =
    (.ok (), [127, 248, 0, 0, 0, 0, 0, 0, 2, 14, 216, 4]) := by decide +kernel

/-- Failures are alike, too: the count does not fit the slice. -/
example : (marshal .compactU16 record (.struct [.float 0, .ptr none, .uint 3, .seq (some [.int 7])])).1 = .panic := by decide +kernel

/-- Optional fields are alike in Borsh and CompactU16. -/
example : alike .borsh .compactU16 (one { option := true } .bool) false = true ∧
    alike .bin .borsh (one { option := true } .bool) false = false := by
  decide

end Verif.Props
