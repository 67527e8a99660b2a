import Verif.Proofs.Rust
import Verif.Props.RoundTrip
/-!
# C112: Borsh data is exchanged with Rust
-/
set_option linter.unusedSimpArgs false
namespace Verif.Props
open Spec

/-- What Go writes for the counterpart of a Rust value is what Rust writes for the value. -/
theorem C112_written_partial (t : RTy) (v : RVal) (h : RFits (2 ^ 32 - 1) t v) : marshal .borsh (goTy t) (goVal t v) = (.ok (), rust t v) := by
  rw [marshal_wire rfl _ _ (go_encodable (Nat.le_refl _) t v h), go_wire t v h]

/-- What Rust wrote is read as the counterpart, whatever follows it. -/
theorem C112_read_partial (t : RTy) (v : RVal) (h : RFits (2 ^ 31 - 1) t v) (tail : Bytes) :
    unmarshal .borsh (goTy t) (goTy t).zero (rust t v ++ tail) = .ok (goVal t v) := by
  have hb := go_back (Nat.le_refl _) t v h
  have := unmarshal_wire (e := .borsh) rfl (goTy t) (goVal t v) ⟨go_encodable (by decide) t v h, hb.1⟩ tail
  rw [hb.2, go_wire t v h] at this
  exact this

/-- Whatever Go writes for such a type is what Rust writes for some value of the Rust type. -/
theorem C112_any_partial (t : RTy) (ht : t.wf (2 ^ 32 - 1)) (x : Val) (hx : Encodable .borsh (goTy t) none x) :
    ∃ v, RFits (2 ^ 32 - 1) t v ∧ marshal .borsh (goTy t) x = (.ok (), rust t v) := by
  obtain ⟨v, h1, h2⟩ := from_rust t x ht hx
  exact ⟨v, h1, by rw [marshal_wire rfl _ _ hx, h2]⟩

/-- Borsh data of Rust tells values apart as far as their Go counterparts differ, also when more follows. -/
theorem C112_apart (t : RTy) (v w : RVal) (hv : RFits (2 ^ 31 - 1) t v) (hw : RFits (2 ^ 31 - 1) t w) (a b : Bytes)
    (h : rust t v ++ a = rust t w ++ b) : goVal t v = goVal t w ∧ a = b := by
  have h1 := C112_read_partial t v hv a
  rw [h, C112_read_partial t w hw b] at h1
  have h2 : goVal t w = goVal t v := by simpa using h1
  refine ⟨h2.symm, ?_⟩
  rw [← go_wire t v hv, ← go_wire t w hw, h2] at h
  exact List.append_cancel_left h

/-! ### The README's types -/

/-- `enum MyEnum { One, Two(u32), Three(i16) }` -/
def rustMyEnum : RTy := .enum (.cons .unit (.cons (.uint .w32) (.cons (.int .w16) .nil)))

/-- the Go type is the README's, up to the names of the fields -/
example : goTy rustMyEnum = .struct (.cons { name := nthName 0, tag := { isEnum := true } } .borshEnum
    (.cons { name := nthName 1 } (.lib .emptyVariant) (.cons { name := nthName 2 } (.uint .w32 false)
      (.cons { name := nthName 3 } (.int .w16 false) .nil)))) := by
  simp [rustMyEnum, goTy, goVariants, RTy.boxedVariant]

/-- `MyEnum::Two(258)`, both ways -/
example : marshal .borsh (goTy rustMyEnum) (.struct [.uint 1, .struct [], .uint 258, .int 0]) = (.ok (), [1, 2, 1, 0, 0]) ∧
    unmarshal .borsh (goTy rustMyEnum) (goTy rustMyEnum).zero [1, 2, 1, 0, 0, 99] = .ok (.struct [.uint 1, .struct [], .uint 258, .int 0]) := by
  have hf : ∀ N, RFits N rustMyEnum (.variant 1 (.uint 258)) := fun N => by simp [rustMyEnum, RFits, RFitsNth, Width.bits, Width.bytes]
  have h1 := C112_written_partial rustMyEnum (.variant 1 (.uint 258)) (hf _)
  have h2 := C112_read_partial rustMyEnum (.variant 1 (.uint 258)) (hf _) [99]
  have hg : goVal rustMyEnum (.variant 1 (.uint 258)) = .struct [.uint 1, .struct [], .uint 258, .int 0] := by
    simp [rustMyEnum, goVal, goPayloads, RTy.boxedVariant, goTy, goVariants, Fields.zeros, Ty.zero, Lib.zero]
  have hr : rust rustMyEnum (.variant 1 (.uint 258)) = [1, 2, 1, 0, 0] := by
    simp [rustMyEnum, rust, rustNth, leBytes, Width.bytes]
  rw [hg, hr] at h1 h2
  exact ⟨h1, h2⟩

/-- `struct Person { name: String, age: Option<u8> }` -/
def rustPerson : RTy := .struct (.cons .string (.cons (.option (.uint .w8)) .nil))

/-- `Person { name: "A", age: Some(0) }`, both ways, with a pointer for the age -/
example : marshal .borsh (goTy rustPerson) (.struct [.str [65], .struct [.ptr (some (.uint 0))]]) = (.ok (), [1, 0, 0, 0, 65, 1, 0]) ∧
    unmarshal .borsh (goTy rustPerson) (goTy rustPerson).zero [1, 0, 0, 0, 65, 1, 0] =
      .ok (.struct [.str [65], .struct [.ptr (some (.uint 0))]]) := by
  have hf : ∀ N, 1 ≤ N → RFits N rustPerson (.struct [.string [65], .some (.uint 0)]) := fun N hN => by
    simp [rustPerson, RFits, RFitsAll, Width.bits, Width.bytes, hN]
  have h1 := C112_written_partial rustPerson _ (hf _ (by decide))
  have h2 := C112_read_partial rustPerson _ (hf _ (by decide)) []
  have hg : goVal rustPerson (.struct [.string [65], .some (.uint 0)]) = .struct [.str [65], .struct [.ptr (some (.uint 0))]] := by
    simp [rustPerson, goVal, goVals, RTy.boxedOption]
  have hr : rust rustPerson (.struct [.string [65], .some (.uint 0)]) = [1, 0, 0, 0, 65, 1, 0] := by
    simp [rustPerson, rust, rustAll, leBytes, Width.bytes]
  rw [hg, hr] at h1 h2
  exact ⟨h1, h2⟩

/-- all kinds of types in one -/
def rustSample : RTy := .struct (.cons (.map (.uint .w8) (.vec (.option .u128))) (.cons (.array 2 .bool)
  (.cons (.enum (.cons (.vec (.int .w16)) (.cons .unit .nil))) (.cons .f32 (.cons .i128 .nil)))))
def rustSampleVal : RVal := .struct [.map [(.uint 1, .seq [.none]), (.uint 2, .seq [.some (.uint 7), .none])], .seq [.bool true, .bool false],
  .variant 0 (.seq [.int (-1)]), .float 0x3f800000, .int (-2)]

/-- the conditions hold of it, and the bytes are these -/
example : RFits 3 rustSample rustSampleVal ∧ rustSample.wf 3 ∧
    rust rustSample rustSampleVal =
      [2, 0, 0, 0, 1, 1, 0, 0, 0, 0, 2, 2, 0, 0, 0, 1, 7, 0, 0, 0, 0, 0, 0, 0, 0, 0, 0, 0, 0, 0, 0, 0, 0, 1, 0,
        0, 1, 0, 0, 0, 255, 255, 0, 0, 128, 63, 254] ++ List.replicate 15 255 := by
  refine ⟨?_, ?_, ?_⟩
  · simp [rustSample, rustSampleVal, RFits, RFitsAll, RFitsNth, RTy.takesBytes, RTy.isKey, keyLess, Width.bits, Width.bytes]
    decide
  · simp [rustSample, RTy.wf, RTys.wf, RTy.takesBytes, RTy.isKey]
  · decide +kernel

/-- `C112_any_partial` on a map that is not in order -/
example : ∃ v, RFits (2 ^ 32 - 1) (.map (.uint .w8) .bool) v ∧
    marshal .borsh (goTy (.map (.uint .w8) .bool)) (.map (some [(.uint 9, .bool true), (.uint 4, .bool false)])) =
      (.ok (), rust (.map (.uint .w8) .bool) v) :=
  C112_any_partial _ (by simp [RTy.wf, RTy.isKey]) _ (by
    simp [goTy, Encodable, maxLen, orderedKey, Ty.keyEq, Val.plainEq, Width.bits, Width.bytes])

/-! ### Where it fails -/

/-- With the README's own type for an `Option`, a value under `optional`, `Some` of a zero value is written as `None`; the others are
right. -/
theorem C112_optional_value (t : RTy) (v : RVal) (h : RFits (2 ^ 32 - 1) t v) (name : Bytes) :
    marshal .borsh (.struct (.cons { name := name, tag := { option := true } } (goTy t) .nil)) (.struct [goVal t v]) =
      (.ok (), rust (.option t) (if (goTy t).isZero (goVal t v) then .none else .some v)) := by
  have he : Encodable .borsh (.struct (.cons { name := name, tag := { option := true } } (goTy t) .nil)) none (.struct [goVal t v]) := by
    simp only [Encodable]
    rw [if_neg (by cases t <;> simp [goTy, Fields.isEnum])]
    simp [EncodableFields, announce, lookupSize, go_encodable (Nat.le_refl _) t v h]
  rw [marshal_wire rfl _ _ he]
  simp only [wire]
  rw [if_neg (by cases t <;> simp [goTy, Fields.isEnum]), wireFields, if_neg (by simp), if_pos rfl, fieldWire]
  have hw := go_wire t v h
  cases hz : (goTy t).isZero (goVal t v) with
  | true => simp [wireFields, rust, flag, fixed_one]
  | false =>
    simp only [announced, wireFields, flag, fixed_one, if_true, if_neg (show ¬ Encoding.borsh = Encoding.bin by decide)]
    rw [show ([] : List Bytes).contains name = false from rfl, hw]
    simp [rust]
example : RFits (2 ^ 32 - 1) (.uint .w8) (.uint 0) ∧ (goTy (.uint .w8)).isZero (goVal (.uint .w8) (.uint 0)) = true ∧
    RFits (2 ^ 32 - 1) (.uint .w8) (.uint 5) ∧ (goTy (.uint .w8)).isZero (goVal (.uint .w8) (.uint 5)) = false := by
  simp [RFits, goTy, goVal, Ty.isZero, Width.bits, Width.bytes]

/-- the README's `type Person struct { Name string; Age uint8 `bin:"optional"` }` -/
def readmePerson : Ty := .struct (.cons { name := [78, 97, 109, 101] } .str
  (.cons { name := [65, 103, 101], tag := { option := true } } (.uint .w8 false) .nil))

/-- The README's equivalence does not hold: Rust's `Person { name: "A", age: Some(0) }` and `Person { name: "A", age: None }` are two
values with two encodings, and Go reads both as the same; written again, the first has become the second. -/
theorem C112_violated :
    let some0 := rust rustPerson (.struct [.string [65], .some (.uint 0)])
    let none := rust rustPerson (.struct [.string [65], .none])
    some0 ≠ none ∧ unmarshal .borsh readmePerson readmePerson.zero some0 = unmarshal .borsh readmePerson readmePerson.zero none ∧
      unmarshal .borsh readmePerson readmePerson.zero some0 = .ok (.struct [.str [65], .uint 0]) ∧
      marshal .borsh readmePerson (.struct [.str [65], .uint 0]) = (.ok (), none) := by
  have h1 : rust rustPerson (.struct [.string [65], .some (.uint 0)]) = [1, 0, 0, 0, 65, 1, 0] := by decide +kernel
  have h2 : rust rustPerson (.struct [.string [65], .none]) = [1, 0, 0, 0, 65, 0] := by decide +kernel
  simp only [h1, h2]
  exact ⟨by decide, rfl, rfl, rfl⟩

/-- Payloads that are vectors, as they are: the Go encoder writes the number of the variant only (C42), which is not what Rust writes. -/
theorem C112_plain_payload :
    marshal .borsh (.struct (.cons { name := nthName 0, tag := { isEnum := true } } .borshEnum
        (.cons { name := nthName 1 } (goTy (.vec (.int .w16))) .nil))) (.struct [.uint 0, goVal (.vec (.int .w16)) (.seq [.int 5])]) =
      (.ok (), [0]) ∧
    rust (.enum (.cons (.vec (.int .w16)) .nil)) (.variant 0 (.seq [.int 5])) = [0, 1, 0, 0, 0, 5, 0] := by
  refine ⟨?_, by decide +kernel⟩
  simp only [goTy, goVal, List.isEmpty_cons, List.map_cons, List.map_nil]
  rfl

/-- `Option<u128>` as an optional pointer to the library's `Uint128`: written as Rust does, but the presence byte is read as part of the
number, and `Some(7)` comes back as 1793. -/
theorem C112_plain_option :
    let T : Ty := .struct (.cons { name := nthName 0, tag := { option := true } } (.ptr (goTy .u128)) .nil)
    marshal .borsh T (.struct [.ptr (some (goVal .u128 (.uint 7)))]) = (.ok (), rust (.option .u128) (.some (.uint 7))) ∧
      unmarshal .borsh T T.zero (rust (.option .u128) (.some (.uint 7))) = .ok (.struct [.ptr (some (goVal .u128 (.uint 1793)))]) := by
  have h : rust (.option .u128) (.some (.uint 7)) = [1, 7, 0, 0, 0, 0, 0, 0, 0, 0, 0, 0, 0, 0, 0, 0, 0] := by decide +kernel
  simp only [goTy, goVal, h]
  exact ⟨by decide +kernel, rfl⟩

end Verif.Props
