import Verif.Proofs.SizeRead
import Verif.Proofs.SizeMost
import Verif.Props.Encode
/-!
# C114: The size of a type
-/
set_option linter.unusedSimpArgs false
namespace Verif.Props
open Spec

/-- What `Encode` writes for a value has at least `least` bytes and, if the type has no strings, slices and maps, at most `most`. -/
theorem C114_written {e : Encoding} (he : e.valid = true) (t : Ty) (v : Val) (h : Encodable e t none v) :
    least false e t false ≤ (marshal e t v).2.length ∧ (Bounded e t = true → (marshal e t v).2.length ≤ most false e t) := by
  rw [marshal_wire he t v h]
  exact size_wire (e := e) t .le none false v h

/-- Where the two agree, all values have the same size. -/
theorem C114_fixed {e : Encoding} (he : e.valid = true) (t : Ty) (hb : Bounded e t = true) (hs : most false e t = least false e t false)
    (v w : Val) (hv : Encodable e t none v) (hw : Encodable e t none w) :
    (marshal e t v).2.length = least false e t false ∧ (marshal e t v).2.length = (marshal e t w).2.length := by
  have h1 := C114_written he t v hv
  have h2 := C114_written he t w hw
  have := h1.2 hb
  have := h2.2 hb
  omega

/-- The least size is reached: by the zero value, if it has an encoding and no Borsh enum is part of it (there the first variant need not be
the smallest). -/
theorem C114_zero {e : Encoding} (he : e.valid = true) (t : Ty) (hn : NoEnum e t = true) (h : Encodable e t none t.zero) :
    (marshal e t t.zero).2.length = least false e t false := by
  rw [marshal_wire he t _ h]
  exact zero_size (e := e) t .le none false hn h

/-- The greatest size is reached as well, by a value with long varints in which nothing is nil. -/
theorem C114_most {e : Encoding} (he : e.valid = true) (t : Ty) (hf : Full e t = true) :
    ∃ v, Encodable e t none v ∧ (marshal e t v).2.length = most false e t := by
  have h := big_size (e := e) t .le none false hf
  exact ⟨big t, h.1, by rw [marshal_wire he t _ h.1]; exact h.2⟩

/-- A successful `Decode` of any bytes into a fresh variable, from any position, moves the cursor by a number of bytes between the bounds
for reading. -/
theorem C114_read {e : Encoding} (he : e.valid = true) (t : Ty) (d : Dec) (h0 : 0 ≤ d.pos) (h1 : d.pos ≤ d.data.length) (hd : d.enc = e)
    {v : Val} {d' : Dec} (hr : decode t t.zero d = (.ok v, d')) :
    d.pos + least true e t false ≤ d'.pos ∧ d'.pos ≤ d'.data.length ∧ (Bounded e t = true → d'.pos ≤ d.pos + most true e t) := by
  obtain ⟨h2, -, -, h3, h4⟩ := size_decode he t d v d' ⟨h0, h1⟩ hd hr
  exact ⟨h3, h2.2, h4⟩

/-- Hence inputs shorter than the least size are refused whatever they contain. -/
theorem C114_short {e : Encoding} (he : e.valid = true) (t : Ty) (b : Bytes) (hb : b.length < least true e t false) (v : Val) :
    unmarshal e t t.zero b ≠ .ok v := by
  intro h
  cases hr : decode t t.zero (Dec.new b e) with
  | mk r d' =>
    have hr' : r = .ok v := by rw [← h, unmarshal, hr]
    subst hr'
    obtain ⟨⟨-, h2⟩, -, h3, h4, -⟩ := size_decode he t (Dec.new b e) v d' (Dec.new_ok b e) rfl hr
    simp only [h3, Dec.new] at h2 h4
    omega

/-- `struct { A *uint16 \`bin:"optional"\`; B Varuint32; C [3]bool }` -/
def recordTy : Ty := .struct (.cons { name := [65], tag := { option := true } } (.ptr (.uint .w16 false)) (.cons { name := [66] } (.lib .varuint32)
  (.cons { name := [67] } (.array 3 .bool) .nil)))
def recordVal (a : Option Nat) (n : Nat) : Val := .struct [.ptr (a.map .uint), .uint n, .arr [.bool true, .bool false, .bool true]]

theorem recordVal_encodable {e : Encoding} (a : Option Nat) (n : Nat) (ha : ∀ x ∈ a, x < 65536) (hn : n < 2 ^ 32) :
    Encodable e recordTy none (recordVal a n) := by
  cases a <;> simp [recordTy, recordVal, Encodable, EncodableFields, announce, Fields.isEnum, Ty.uintKind, Ty.kind, LibEnc, Width.bits, Width.bytes, absent, Ty.isZero, Ty.asLib] <;> simp_all

/-- the bounds, and that both are reached -/
example : least false .bin recordTy false = 8 ∧ most false .bin recordTy = 14 ∧ least false .borsh recordTy false = 5 ∧
    most false .borsh recordTy = 11 ∧ Bounded .bin recordTy = true ∧ Bounded .borsh recordTy = true := by decide
example : (marshal .bin recordTy (recordVal none 0)).2.length = 8 ∧ (marshal .bin recordTy (recordVal (some 5) 4294967295)).2.length = 14 ∧
    (marshal .borsh recordTy (recordVal none 0)).2.length = 5 ∧ (marshal .borsh recordTy (recordVal (some 5) 4294967295)).2.length = 11 := by
  decide +kernel
example (a : Option Nat) (n : Nat) (ha : ∀ x ∈ a, x < 65536) (hn : n < 2 ^ 32) :
    5 ≤ (marshal .compactU16 recordTy (recordVal a n)).2.length ∧ (marshal .compactU16 recordTy (recordVal a n)).2.length ≤ 11 := by
  have := C114_written (e := .compactU16) rfl recordTy _ (recordVal_encodable a n ha hn)
  exact ⟨this.1, this.2 (by decide)⟩

example : NoEnum .borsh recordTy = true ∧ Encodable .borsh recordTy none recordTy.zero ∧ (marshal .borsh recordTy recordTy.zero).2 = [0, 0, 0, 0, 0] := by
  refine ⟨by decide, ?_, by decide +kernel⟩
  simp [recordTy, Ty.zero, Fields.zeros, Lib.zero, Encodable, EncodableFields, announce, Fields.isEnum, Ty.uintKind, Ty.kind, LibEnc, absent, Ty.isZero]
example (e : Encoding) (he : e.valid = true) : (marshal e (.array 7 (.lib .varint32)) (Ty.array 7 (.lib .varint32)).zero).2.length = 7 := by
  rw [C114_zero he _ rfl (by simp [Ty.zero, Lib.zero, Encodable, Ty.uintKind, Ty.kind, Lib.kind, LibEnc])]
  simp [least, libLeast, Ty.uintKind, Ty.kind, Lib.kind]

example : Full .bin recordTy = true ∧ (marshal .bin recordTy (big recordTy)).2 = [1, 0, 0, 0, 1, 0, 255, 255, 255, 255, 15, 1, 1, 1] := by decide +kernel
example : ∃ v, Encodable .borsh recordTy none v ∧ (marshal .borsh recordTy v).2.length = 11 := C114_most rfl recordTy (by decide)

/-- Reading goes from 8 to 19 bytes: the varint may have 10. -/
example : least true .bin recordTy false = 8 ∧ most true .bin recordTy = 19 := by decide
example : (decode recordTy recordTy.zero (Dec.new [0, 0, 0, 0, 9, 1, 1, 1, 77] .bin)).2.pos = 8 ∧
    (decode recordTy recordTy.zero (Dec.new [1, 0, 0, 0, 5, 6, 128, 128, 128, 128, 128, 128, 128, 128, 128, 0, 1, 1, 1, 77] .bin)).2.pos = 19 ∧
    (decode recordTy recordTy.zero (Dec.new [1, 0, 0, 0, 5, 6, 128, 128, 128, 128, 128, 128, 128, 128, 128, 0, 1, 1, 1, 77] .bin)).1 =
      .ok (.struct [.ptr (some (.uint 1541)), .uint 0, .arr [.bool true, .bool true, .bool true]]) := ⟨rfl, rfl, rfl⟩
/-- no seven bytes are a record -/
example (b : Bytes) (h : b.length = 7) (v : Val) : unmarshal .bin recordTy recordTy.zero b ≠ .ok v :=
  C114_short rfl recordTy b (by rw [h]; decide) v

/-- a type of a fixed size -/
example (n m : Nat) (hn : n < 2 ^ 64) (hm : m < 2 ^ 64) : (marshal .borsh (.array 2 (.uint .w64 false)) (.arr [.uint n, .uint m])).2.length = 16 :=
  (C114_fixed (e := .borsh) rfl (.array 2 (.uint .w64 false)) (by decide) (by decide) (.arr [.uint n, .uint m]) (.arr [.uint n, .uint m])
    (by simp [Encodable, Ty.uintKind, Ty.kind, UintElem, Width.bits, Width.bytes]; omega)
    (by simp [Encodable, Ty.uintKind, Ty.kind, UintElem, Width.bits, Width.bytes]; omega)).1

/-- a Borsh enum `{ Enum BorshEnum; A struct{}; B uint32 }`: from 1 to 5 bytes -/
def choiceTy : Ty := .struct (.cons { name := [69], tag := { isEnum := true } } .borshEnum (.cons { name := [65] } (.struct .nil)
  (.cons { name := [66] } (.uint .w32 false) .nil)))
example : least false .borsh choiceTy false = 1 ∧ most false .borsh choiceTy = 5 ∧ Bounded .borsh choiceTy = true ∧
    (marshal .borsh choiceTy (.struct [.uint 0, .struct [], .uint 0])).2 = [0] ∧
    (marshal .borsh choiceTy (.struct [.uint 1, .struct [], .uint 7])).2 = [1, 7, 0, 0, 0] := by decide +kernel

/-- `{ Enum BorshEnum; B uint32; A struct{} }`: the zero value is not the smallest -/
example :
    let t : Ty := .struct (.cons { name := [69], tag := { isEnum := true } } .borshEnum (.cons { name := [66] } (.uint .w32 false)
      (.cons { name := [65] } (.struct .nil) .nil)))
    NoEnum .borsh t = false ∧ (marshal .borsh t t.zero).2.length = 5 ∧ (marshal .borsh t (.struct [.uint 1, .uint 0, .struct []])).2.length = 1 := by
  decide +kernel

/-! ### Where reading and writing differ -/

/-- A nil pointer is written as nothing and cannot be read: no bytes are too few for the decoder. -/
theorem C114_nil_pointer : Encodable .bin (.ptr (.uint .w8 false)) none (.ptr none) ∧
    (marshal .bin (.ptr (.uint .w8 false)) (.ptr none)).2 = [] ∧ least true .bin (.ptr (.uint .w8 false)) false = 1 ∧
    ∀ v, unmarshal .bin (.ptr (.uint .w8 false)) (.ptr none) [] ≠ .ok v := by
  refine ⟨by simp [Encodable, Ty.asLib], by decide +kernel, by decide, fun v => ?_⟩
  exact C114_short (e := .bin) rfl (.ptr (.uint .w8 false)) [] (by decide) v

/-- A missing `binary_extension` field is accepted but always written. -/
theorem C114_extension :
    let t : Ty := .struct (.cons { name := [65], tag := { binExt := true } } (.uint .w8 false) .nil)
    least false .bin t false = 1 ∧ least true .bin t false = 0 ∧
    unmarshal .bin t t.zero [] = .ok (.struct [.uint 0]) := ⟨by decide, by decide, rfl⟩

end Verif.Props
