import Verif.Props.Libs
import Verif.Spec.Enums
/-!
# C42: Borsh complex enums
-/
set_option linter.unusedSimpArgs false
namespace Verif.Props
open Spec

/-! A struct is an enum if its first field has type `BorshEnum` and carries the enum tag; its variants are the other fields. -/

theorem copyNth_head (e : Encoding) (t : Ty) (m : FieldMeta) (fs : Fields) (i : Nat) (v : Val) (vs : List Val) :
    (copyNth e (.cons m t fs) (i + 1) (v :: vs)).tail = copyNth e fs i vs := by
  simp only [copyNth, List.tail_cons]

theorem copyNth_others {e : Encoding} : (fs : Fields) → (n : Nat) → (vs : List Val) → EncodableNth e fs n vs →
    ∀ i, i ≠ n → (copyNth e fs n vs)[i]? = fs.zeros[i]?
  | .nil, n, vs, h => by simp [EncodableNth] at h
  | .cons _ t fs, 0, [], h => by simp [EncodableNth] at h
  | .cons _ t fs, n + 1, [], h => by simp [EncodableNth] at h
  | .cons _ t fs, 0, v :: vs, h => by
    intro i hi
    cases i with
    | zero => exact absurd rfl hi
    | succ i => simp [copyNth, Fields.zeros]
  | .cons _ t fs, n + 1, v :: vs, h => by
    intro i hi
    simp only [EncodableNth] at h
    cases i with
    | zero => simp [copyNth, Fields.zeros]
    | succ i =>
      simp only [copyNth, Fields.zeros, List.getElem?_cons_succ]
      exact copyNth_others fs n vs h i (by omega)

theorem encodableNth_types {e : Encoding} : (fs : Fields) → (n : Nat) → (vs : List Val) → (t : Ty) → (v : Val) → (types fs)[n]? = some t →
    vs[n]? = some v → payloadOk t v → Encodable e t none v → EncodableNth e fs n vs
  | .nil, n, vs, t, v, ht, _, _, _ => by simp [types] at ht
  | .cons _ t' fs, n, [], t, v, _, hv, _, _ => by simp at hv
  | .cons _ t' fs, 0, v' :: vs, t, v, ht, hv, hp, he => by
    simp only [types, List.getElem?_cons_zero, Option.some.injEq] at ht hv
    subst ht hv
    exact ⟨hp, he⟩
  | .cons _ t' fs, n + 1, v' :: vs, t, v, ht, hv, hp, he => by
    simp only [types, List.getElem?_cons_succ] at ht hv
    exact encodableNth_types fs n vs t v ht hv hp he

theorem returnsNth_types {e : Encoding} : (fs : Fields) → (n : Nat) → (vs : List Val) → (t : Ty) → (v : Val) → (types fs)[n]? = some t →
    vs[n]? = some v → Returns e t false v → ReturnsNth e fs n vs
  | .nil, n, vs, t, v, ht, _, _ => by simp [types] at ht
  | .cons _ t' fs, n, [], t, v, _, hv, _ => by simp at hv
  | .cons _ t' fs, 0, v' :: vs, t, v, ht, hv, hr => by
    simp only [types, List.getElem?_cons_zero, Option.some.injEq] at ht hv
    subst ht hv
    exact hr
  | .cons _ t' fs, n + 1, v' :: vs, t, v, ht, hv, hr => by
    simp only [types, List.getElem?_cons_succ] at ht hv
    exact returnsNth_types fs n vs t v ht hv hr

theorem wireNth_types {e : Encoding} : (fs : Fields) → (n : Nat) → (vs : List Val) → (t : Ty) → (v : Val) → (types fs)[n]? = some t →
    vs[n]? = some v → wireNth e fs n vs = wire e t .le false v
  | .nil, n, vs, t, v, ht, _ => by simp [types] at ht
  | .cons _ t' fs, n, [], t, v, _, hv => by simp at hv
  | .cons _ t' fs, 0, v' :: vs, t, v, ht, hv => by
    simp only [types, List.getElem?_cons_zero, Option.some.injEq] at ht hv
    subst ht hv
    rfl
  | .cons _ t' fs, n + 1, v' :: vs, t, v, ht, hv => by
    simp only [types, List.getElem?_cons_succ] at ht hv
    exact wireNth_types fs n vs t v ht hv

theorem copyNth_types {e : Encoding} : (fs : Fields) → (n : Nat) → (vs : List Val) → (t : Ty) → (v : Val) → (types fs)[n]? = some t →
    vs[n]? = some v → (copyNth e fs n vs)[n]? = some (copy e t v)
  | .nil, n, vs, t, v, ht, _ => by simp [types] at ht
  | .cons _ t' fs, n, [], t, v, _, hv => by simp at hv
  | .cons _ t' fs, 0, v' :: vs, t, v, ht, hv => by
    simp only [types, List.getElem?_cons_zero, Option.some.injEq] at ht hv
    subst ht hv
    rfl
  | .cons _ t' fs, n + 1, v' :: vs, t, v, ht, hv => by
    simp only [types, List.getElem?_cons_succ] at ht hv
    exact copyNth_types fs n vs t v ht hv

theorem zeros_types : (fs : Fields) → fs.zeros = (types fs).map Ty.zero
  | .nil => rfl
  | .cons _ t fs => by rw [Fields.zeros, types, List.map_cons, zeros_types fs]

theorem length_types : (fs : Fields) → fs.length = (types fs).length
  | .nil => rfl
  | .cons _ t fs => by rw [Fields.length, types, List.length_cons, length_types fs]

/-- C42, format: the tag byte, then the selected field alone; the other fields contribute nothing, whatever they hold.
What is missing: payloads that are slices, arrays, maps or varints (`payloadOk`, see `C42_violated`). -/
theorem C42_format_partial (m : FieldMeta) (hm : m.tag.isEnum = true) (fs : Fields) (n : Nat) (hn : n < 256) (t : Ty) (v : Val)
    (vs : List Val) (ht : (types fs)[n]? = some t) (hv : vs[n]? = some v) (hp : payloadOk t v) (he : Encodable .borsh t none v) :
    marshal .borsh (.struct (.cons m .borshEnum fs)) (.struct (.uint n :: vs)) =
      (.ok (), UInt8.ofNat n :: wire .borsh t .le false v) := by
  have h : Encodable .borsh (.struct (.cons m .borshEnum fs)) none (.struct (.uint n :: vs)) := by
    simp only [Encodable, Fields.isEnum, hm, and_self, if_true, EncodableNth]
    exact ⟨hn, encodableNth_types fs n vs t v ht hv hp he⟩
  rw [marshal_wire rfl _ _ h]
  simp only [wire, Fields.isEnum, hm, and_self, if_true, wireNth]
  rw [wireNth_types fs n vs t v ht hv]
  simp [fixed]

/-- C42, round trip: tag and selected payload come back, every other field is zero. -/
theorem C42_roundtrip_partial (m : FieldMeta) (hm : m.tag.isEnum = true) (fs : Fields) (n : Nat) (hn : n < 256) (t : Ty) (v : Val)
    (vs : List Val) (ht : (types fs)[n]? = some t) (hv : vs[n]? = some v) (hp : payloadOk t v) (hs : Supported .borsh t v)
    (tail : Bytes) :
    ∃ w ws, unmarshal .borsh (.struct (.cons m .borshEnum fs)) (Ty.zero (.struct (.cons m .borshEnum fs)))
        ((marshal .borsh (.struct (.cons m .borshEnum fs)) (.struct (.uint n :: vs))).2 ++ tail) = .ok (.struct (.uint n :: ws)) ∧
      ws[n]? = some w ∧ Same .borsh t v w ∧ ∀ i, i ≠ n → ws[i]? = ((types fs)[i]?).map Ty.zero := by
  have h1 : Encodable .borsh (.struct (.cons m .borshEnum fs)) none (.struct (.uint n :: vs)) := by
    simp only [Encodable, Fields.isEnum, hm, and_self, if_true, EncodableNth]
    exact ⟨hn, encodableNth_types fs n vs t v ht hv hp hs.1⟩
  have h2 : Returns .borsh (.struct (.cons m .borshEnum fs)) false (.struct (.uint n :: vs)) := by
    simp only [Returns, Fields.isEnum, hm, and_self, if_true, ReturnsNth]
    exact returnsNth_types fs n vs t v ht hv hs.2
  refine ⟨copy .borsh t v, copyNth .borsh fs n vs, ?_, copyNth_types fs n vs t v ht hv, same_copy t none v hs.1 hs.2, ?_⟩
  · rw [marshal_wire rfl _ _ h1]
    simp only []
    rw [unmarshal_wire rfl _ _ ⟨h1, h2⟩ tail]
    simp only [copy, Fields.isEnum, hm, and_self, if_true, copyNth_head]
  · intro i hi
    rw [copyNth_others fs n vs (encodableNth_types fs n vs t v ht hv hp hs.1) i hi, zeros_types, List.getElem?_map]

/-- C42, a tag with no matching field is an error when encoding (the tag is written before that is noticed), -/
theorem C42_encode_rejects (m : FieldMeta) (hm : m.tag.isEnum = true) (fs : Fields) (n : Nat) (vs : List Val)
    (h : (types fs).length ≤ n) :
    marshal .borsh (.struct (.cons m .borshEnum fs)) (.struct (.uint n :: vs)) = (.err .enumTooLarge, [UInt8.ofNat n]) := by
  rw [← length_types] at h
  unfold marshal encode
  rw [M.bind_apply, M.get_apply]
  simp only []
  rw [if_neg (by simp [Enc.new]), show (Enc.new .borsh).enc = .borsh from rfl]
  simp only [encCore, encStruct, Fields.isEnum, hm, and_self, if_true]
  rw [M.bind_ok (show setCurE .le (Enc.new .borsh) = (.ok (), { Enc.new .borsh with cur := some .le }) from rfl)]
  have hw := toWriter_ok (s := { Enc.new .borsh with cur := some .le }) (fun _ _ => rfl) [UInt8.ofNat n]
  rw [M.bind_ok (show writeByte (UInt8.ofNat n) _ = _ from hw), if_pos (by simp only [Fields.length]; omega)]
  rfl

/-- and when decoding, whatever follows. -/
theorem C42_decode_rejects (m : FieldMeta) (hm : m.tag.isEnum = true) (fs : Fields) (b : UInt8) (tail : Bytes) (old : Val)
    (h : (types fs).length ≤ b.toNat) :
    unmarshal .borsh (.struct (.cons m .borshEnum fs)) old (b :: tail) = .err .enumTooLarge := by
  rw [← length_types] at h
  unfold unmarshal decode
  rw [M.bind_apply, M.get_apply]
  simp only []
  rw [if_neg (by simp [Dec.new]), show (Dec.new (b :: tail) .borsh).enc = .borsh from rfl]
  simp only [decCore, decStruct, Fields.isEnum, hm, and_self, if_true]
  rw [M.bind_ok (show setCurD .le (Dec.new (b :: tail) .borsh) = (.ok (), decAt .borsh (some .le) [] ([b] ++ tail)) from by
    simp [setCurD, Dec.new, decAt])]
  have hr := (readUint8_reads .borsh b.toNat b.toNat_lt).consumes (some .le) [] tail
  rw [UInt8.ofNat_toNat] at hr
  rw [M.bind_ok hr, if_pos (by simp only [Fields.length]; omega)]
  rfl

/-- C42 is false for payloads that are slices, arrays or maps (only the tag is written) and for the varint types (written as
fixed-width integers, read as varints). -/
theorem C42_violated :
    let en (t : Ty) := Ty.struct (.cons { name := [69], tag := { isEnum := true } } .borshEnum (.cons { name := [86] } t .nil))
    (marshal .borsh (en (.slice (.uint .w8 false))) (.struct [.uint 0, .seq (some [.uint 1, .uint 2])]) = (.ok (), [0]) ∧
      unmarshal .borsh (en (.slice (.uint .w8 false))) (.struct [.uint 0, .seq none]) [0] = .err .notEnough) ∧
    (marshal .borsh (en (.array 2 (.uint .w8 false))) (.struct [.uint 0, .arr [.uint 1, .uint 2]]) = (.ok (), [0]) ∧
      unmarshal .borsh (en (.array 2 (.uint .w8 false))) (.struct [.uint 0, .arr [.uint 0, .uint 0]]) [0] = .err .eof) ∧
    (marshal .borsh (en (.map .bool .bool)) (.struct [.uint 0, .map (some [(.bool true, .bool true)])]) = (.ok (), [0]) ∧
      unmarshal .borsh (en (.map .bool .bool)) (.struct [.uint 0, .map none]) [0] = .err .notEnough) ∧
    (marshal .borsh (en (.lib .varuint16)) (.struct [.uint 0, .uint 300]) = (.ok (), [0, 44, 1]) ∧
      unmarshal .borsh (en (.lib .varuint16)) (.struct [.uint 0, .uint 0]) [0, 44, 1] = .ok (.struct [.uint 0, .uint 44])) := by
  intro en
  refine ⟨⟨?_, ?_⟩, ⟨?_, ?_⟩, ⟨?_, ?_⟩, ⟨?_, ?_⟩⟩ <;> decide +kernel

/-- The same for all values: the payload of a varint type is written with the fixed width of the Go integer behind it, and
`HexBytes` is not written at all. -/
theorem C42_violated_kinds (z : Int) (n : Nat) (b : Option Bytes) :
    let en (l : Lib) := Ty.struct (.cons { name := [69], tag := { isEnum := true } } .borshEnum (.cons { name := [86] } (.lib l) .nil))
    marshal .borsh (en .varint16) (.struct [.uint 0, .int z]) = (.ok (), 0 :: fixed .le 2 (twos 16 z)) ∧
    marshal .borsh (en .varint32) (.struct [.uint 0, .int z]) = (.ok (), 0 :: fixed .le 4 (twos 32 z)) ∧
    marshal .borsh (en .varuint16) (.struct [.uint 0, .uint n]) = (.ok (), 0 :: fixed .le 2 n) ∧
    marshal .borsh (en .varuint32) (.struct [.uint 0, .uint n]) = (.ok (), 0 :: fixed .le 4 n) ∧
    marshal .borsh (en .hexBytes) (.struct [.uint 0, .bytes b]) = (.ok (), [0]) := by
  intro en
  simp only [fixed_eq, twos_eq]
  exact ⟨rfl, rfl, rfl, rfl, rfl⟩

/-- C42: the tag decides. A struct that starts with a `BorshEnum` field without the enum tag is an ordinary struct: all its
fields are written and read, for every value of the first. -/
theorem C42_untagged (n a b : Nat) (hn : n < 256) (ha : a < 256) (hb : b < 256) (tail : Bytes) :
    let t (m : Bool) := Ty.struct (.cons { name := [69], tag := { isEnum := m } } .borshEnum
      (.cons { name := [65] } (.uint .w8 false) (.cons { name := [66] } (.uint .w8 false) .nil)))
    marshal .borsh (t false) (.struct [.uint n, .uint a, .uint b]) =
      (.ok (), [UInt8.ofNat n, UInt8.ofNat a, UInt8.ofNat b]) ∧
    unmarshal .borsh (t false) (t false).zero ([UInt8.ofNat n, UInt8.ofNat a, UInt8.ofNat b] ++ tail) =
      .ok (.struct [.uint n, .uint a, .uint b]) ∧
    marshal .borsh (t true) (.struct [.uint 0, .uint a, .uint b]) = (.ok (), [0, UInt8.ofNat a]) ∧
    marshal .borsh (t true) (.struct [.uint 1, .uint a, .uint b]) = (.ok (), [1, UInt8.ofNat b]) := by
  intro t
  have hb8 : 2 ^ Width.w8.bits = 256 := rfl
  have hs : Supported .borsh (t false) (.struct [.uint n, .uint a, .uint b]) := by
    constructor
    · simp [t, Encodable, EncodableFields, announce, Fields.isEnum, hb8, hn, ha, hb]
    · simp [t, Returns, ReturnsFields, Fields.isEnum]
  have hw : ∀ x : Nat, fixed .le 1 x = [UInt8.ofNat x] := by intro x; simp [fixed]
  have he : Encodable .borsh (t true) none (.struct [.uint 0, .uint a, .uint b]) ∧
      Encodable .borsh (t true) none (.struct [.uint 1, .uint a, .uint b]) := by
    constructor <;>
    simp [t, Encodable, EncodableNth, payloadOk, payloadBase, announce, Fields.isEnum, hb8, ha, hb]
  have h1 := marshal_wire rfl _ _ hs.1
  have h2 := unmarshal_wire rfl _ _ hs tail
  have h3 : wire .borsh (t false) .le false (.struct [.uint n, .uint a, .uint b]) =
      [UInt8.ofNat n, UInt8.ofNat a, UInt8.ofNat b] := by
    simp [t, wire, wireFields, Fields.isEnum, hw, absent, fieldWire, ord, Width.bytes]
  have h4 : copy .borsh (t false) (.struct [.uint n, .uint a, .uint b]) = .struct [.uint n, .uint a, .uint b] := by
    simp [t, copy, copyFields, Fields.isEnum, absent]
  refine ⟨?_, ?_, ?_, ?_⟩
  · rw [h1, h3]
  · rw [h3, h4] at h2; exact h2
  · rw [marshal_wire rfl _ _ he.1]; simp [t, wire, wireNth, Fields.isEnum, hw, ord, Width.bytes]
  · rw [marshal_wire rfl _ _ he.2]; simp [t, wire, wireNth, Fields.isEnum, hw, ord, Width.bytes]

/-- The type decides too, and the position: the enum tag on a `uint8` field, or on a `BorshEnum` field that is not the first,
makes no enum. -/
theorem C42_position (n a : Nat) :
    let t (x y : Ty) := Ty.struct (.cons { name := [69], tag := { isEnum := true } } x
      (.cons { name := [65], tag := { isEnum := true } } y .nil))
    marshal .borsh (t (.uint .w8 false) (.uint .w8 false)) (.struct [.uint n, .uint a]) = (.ok (), [UInt8.ofNat n, UInt8.ofNat a]) ∧
    marshal .borsh (t (.uint .w8 true) (.uint .w8 true)) (.struct [.uint n, .uint a]) = (.ok (), [UInt8.ofNat n, UInt8.ofNat a]) ∧
    marshal .borsh (t (.uint .w8 false) .borshEnum) (.struct [.uint n, .uint a]) = (.ok (), [UInt8.ofNat n, UInt8.ofNat a]) ∧
    marshal .borsh (t .borshEnum .borshEnum) (.struct [.uint 0, .uint a]) = (.ok (), [0, UInt8.ofNat a]) ∧
    marshal .borsh (t .borshEnum .borshEnum) (.struct [.uint 1, .uint a]) = (.err .enumTooLarge, [1]) := by
  exact ⟨rfl, rfl, rfl, rfl, rfl⟩

/-- Meets the hypotheses: two variants, the second (a struct behind a pointer) selected. -/
def enTy : Ty := .struct (.cons { name := [69], tag := { isEnum := true } } .borshEnum (.cons { name := [65] } (.uint .w16 false)
  (.cons { name := [66] } (.ptr (.struct (.cons { name := [67] } .str .nil))) .nil)))
def enVal : Val := .struct [.uint 1, .uint 9, .ptr (some (.struct [.str [104, 105]]))]
example : Supported .borsh enTy enVal := by
  constructor
  · simp [enTy, enVal, Encodable, EncodableNth, EncodableFields, payloadOk, payloadBase, announce, Fields.isEnum, maxStr, maxLen]
  · simp [enTy, enVal, Returns, ReturnsNth, ReturnsFields, Fields.isEnum, readMax, announced]
example : ∃ w ws, unmarshal .borsh enTy enTy.zero ((marshal .borsh enTy enVal).2 ++ [7]) = .ok (.struct (.uint 1 :: ws)) ∧
    ws[1]? = some w ∧ Same .borsh (.ptr (.struct (.cons { name := [67] } .str .nil))) (.ptr (some (.struct [.str [104, 105]]))) w ∧
    ∀ i, i ≠ 1 → ws[i]? = ((types (.cons { name := [65] } (.uint .w16 false)
      (.cons { name := [66] } (.ptr (.struct (.cons { name := [67] } .str .nil))) .nil)))[i]?).map Ty.zero :=
  C42_roundtrip_partial { name := [69], tag := { isEnum := true } } rfl _ 1 (by decide) _ _ [.uint 9, .ptr (some (.struct [.str [104, 105]]))]
    rfl rfl (by simp [payloadOk, payloadBase]) (by
      constructor
      · simp [Encodable, EncodableFields, announce, Fields.isEnum, maxStr, maxLen]
      · simp [Returns, ReturnsFields, Fields.isEnum, readMax, announced]) [7]
example : marshal .borsh enTy enVal = (.ok (), [1, 2, 0, 0, 0, 104, 105]) ∧
    unmarshal .borsh enTy enTy.zero [1, 2, 0, 0, 0, 104, 105] = .ok (.struct [.uint 1, .uint 0, .ptr (some (.struct [.str [104, 105]]))]) := by
  constructor <;> decide +kernel
example : unmarshal .borsh enTy enTy.zero [2, 0, 0] = .err .enumTooLarge := by decide +kernel

end Verif.Props
