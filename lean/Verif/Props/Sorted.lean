import Verif.Proofs.Sorted
import Verif.Props.Encode
/-!
# C113: Big-endian encodings sort like the values
-/
set_option linter.unusedSimpArgs false
namespace Verif.Props
open Spec

/-- Encodings of a sortable type compare byte by byte as the values do; they all have the same length. -/
theorem C113_sorted {e : Encoding} (he : e.valid = true) (t : Ty) (ht : Sortable e t .le = true) (v w : Val)
    (hv : Encodable e t none v) (hw : Encodable e t none w) :
    bytesCmp (marshal e t v).2 (marshal e t w).2 = valCmp t v w ∧ (marshal e t v).2.length = (marshal e t w).2.length := by
  rw [marshal_wire he t v hv, marshal_wire he t w hw]
  have h := sorted_wire (e := e) t .le none none false v w ht hv hw
  exact ⟨h.2, h.1⟩

/-- Hence values equal in the order are written alike, and those written alike are equal in the order. -/
theorem C113_equal {e : Encoding} (he : e.valid = true) (t : Ty) (ht : Sortable e t .le = true) (v w : Val)
    (hv : Encodable e t none v) (hw : Encodable e t none w) :
    (marshal e t v).2 = (marshal e t w).2 ↔ valCmp t v w = .eq := by
  have h := C113_sorted he t ht v w hv hw
  rw [← h.1]
  have key : ∀ a b : Bytes, a = b ↔ bytesCmp a b = .eq := by
    intro a
    induction a with
    | nil => intro b; cases b <;> simp [bytesCmp]
    | cons x a ih =>
      intro b
      cases b with
      | nil => simp [bytesCmp]
      | cons y b => simp [bytesCmp, Ordering.then_eq_eq, ih, UInt8.toNat_inj]
  exact key _ _

/-- A key of fields `fs` followed by `gs`: keys that differ in `fs` are ordered by `fs` alone, keys that agree there lie together and are
ordered by `gs`. -/
theorem C113_leading {e : Encoding} (he : e.valid = true) (fs gs : Fields) (us vs us' vs' : List Val)
    (ht : Sortable e (.struct (thenFields fs gs)) .le = true) (hl : us.length = fs.length) (hl' : us'.length = fs.length)
    (hv : Encodable e (.struct (thenFields fs gs)) none (.struct (us ++ vs)))
    (hw : Encodable e (.struct (thenFields fs gs)) none (.struct (us' ++ vs'))) :
    bytesCmp (marshal e (.struct (thenFields fs gs)) (.struct (us ++ vs))).2
        (marshal e (.struct (thenFields fs gs)) (.struct (us' ++ vs'))).2 =
      (fieldsCmp fs us us').then (fieldsCmp gs vs vs') := by
  rw [(C113_sorted he _ ht _ _ hv hw).1, valCmp]
  clear ht hv hw
  induction fs using Fields.rec (motive_1 := fun _ => True) generalizing us us' with
  | nil =>
    have h1 : us = [] := by simpa [Fields.length] using hl
    have h2 : us' = [] := by simpa [Fields.length] using hl'
    subst h1 h2; simp [thenFields, fieldsCmp]
  | cons m t fs _ ih =>
    cases us with
    | nil => simp [Fields.length] at hl
    | cons u us =>
      cases us' with
      | nil => simp [Fields.length] at hl'
      | cons u' us' =>
        simp only [thenFields, List.cons_append, fieldsCmp]
        rw [ih us us' (by simpa [Fields.length] using hl) (by simpa [Fields.length] using hl')]
        cases valCmp t u u' <;> rfl
  | _ => trivial

/-- `struct { Owner [2]byte; Slot uint64 `bin:"big"`; Last bool }` -/
def keyTy : Ty := .struct (.cons { name := [79] } (.array 2 (.uint .w8 false)) (.cons { name := [83], tag := { order := .be } } (.uint .w64 false)
  (.cons { name := [76] } .bool .nil)))
def keyVal (a b n : Nat) (l : Bool) : Val := .struct [.arr [.uint a, .uint b], .uint n, .bool l]

theorem keyVal_encodable {e : Encoding} (a b n : Nat) (l : Bool) (ha : a < 256) (hb : b < 256) (hn : n < 2 ^ 64) :
    Encodable e keyTy none (keyVal a b n l) := by
  simp [keyTy, keyVal, Encodable, EncodableFields, announce, Fields.isEnum, Ty.uintKind, Ty.kind, UintElem, Width.bits, Width.bytes]
  omega

/-- 255 comes before 256 -/
example : bytesCmp (marshal .bin keyTy (keyVal 1 2 255 true)).2 (marshal .bin keyTy (keyVal 1 2 256 false)).2 = .lt := by
  rw [(C113_sorted rfl keyTy rfl _ _ (keyVal_encodable _ _ _ _ (by decide) (by decide) (by decide))
    (keyVal_encodable _ _ _ _ (by decide) (by decide) (by decide))).1]
  rfl
example : (marshal .bin keyTy (keyVal 1 2 255 true)).2 = [1, 2, 0, 0, 0, 0, 0, 0, 0, 255, 1] ∧
    (marshal .bin keyTy (keyVal 1 2 256 false)).2 = [1, 2, 0, 0, 0, 0, 0, 0, 1, 0, 0] := by decide +kernel
example : (marshal .bin keyTy (keyVal 1 2 255 true)).2 ≠ (marshal .bin keyTy (keyVal 1 2 256 false)).2 := fun h => by
  have := (C113_equal (e := .bin) rfl keyTy rfl _ _ (keyVal_encodable 1 2 255 true (by decide) (by decide) (by decide))
    (keyVal_encodable 1 2 256 false (by decide) (by decide) (by decide))).1 h
  exact absurd this (by decide +kernel)

/-- the same key as `Owner` followed by the rest -/
example : bytesCmp (marshal .bin keyTy (keyVal 1 9 0 false)).2 (marshal .bin keyTy (keyVal 2 0 0 false)).2 = .lt := by
  have := C113_leading (e := .bin) rfl (.cons { name := [79] } (.array 2 (.uint .w8 false)) .nil)
    (.cons { name := [83], tag := { order := .be } } (.uint .w64 false) (.cons { name := [76] } .bool .nil))
    [.arr [.uint 1, .uint 9]] [.uint 0, .bool false] [.arr [.uint 2, .uint 0]] [.uint 0, .bool false] rfl rfl rfl
    (keyVal_encodable 1 9 0 false (by decide) (by decide) (by decide)) (keyVal_encodable 2 0 0 false (by decide) (by decide) (by decide))
  exact this

/-- the library's unsigned types keep their byte order in Borsh -/
example : Sortable .borsh (.struct (.cons { name := [65], tag := { order := .be } } (.lib .uint128) .nil)) .le = true ∧
    Encodable .borsh (.struct (.cons { name := [65], tag := { order := .be } } (.lib .uint128) .nil)) none (.struct [.u128 5 1 none]) ∧
    (marshal .borsh (.struct (.cons { name := [65], tag := { order := .be } } (.lib .uint128) .nil)) (.struct [.u128 5 1 none])).2 =
      [0, 0, 0, 0, 0, 0, 0, 1, 0, 0, 0, 0, 0, 0, 0, 5] := by
  refine ⟨rfl, ?_, by decide +kernel⟩
  simp [Encodable, EncodableFields, announce, Fields.isEnum, LibEnc]

/-! ### What is left out does not sort -/

/-- Little endian, which is the default, and in Borsh also under a `big` tag: 1 comes after 256. -/
theorem C113_little_endian (e : Encoding) (he : e.valid = true) :
    let t (o : Order) : Ty := .struct (.cons { name := [65], tag := { order := o } } (.uint .w16 false) .nil)
    bytesCmp (marshal e (t .le) (.struct [.uint 1])).2 (marshal e (t .le) (.struct [.uint 256])).2 = .gt ∧
    bytesCmp (marshal e (t .be) (.struct [.uint 1])).2 (marshal e (t .be) (.struct [.uint 256])).2 = (if e = .borsh then .gt else .lt) := by
  cases e <;> simp [Encoding.valid] at he <;> decide +kernel

/-- The tag does not reach the elements of an array: `[1]uint16` under `big` is little endian. -/
theorem C113_array (e : Encoding) (he : e.valid = true) :
    let t : Ty := .struct (.cons { name := [65], tag := { order := .be } } (.array 1 (.uint .w16 false)) .nil)
    bytesCmp (marshal e t (.struct [.arr [.uint 1]])).2 (marshal e t (.struct [.arr [.uint 256]])).2 = .gt := by
  cases e <;> simp [Encoding.valid] at he <;> decide +kernel

/-- Signed integers: -1 comes after 0. -/
theorem C113_signed (e : Encoding) (he : e.valid = true) :
    bytesCmp (marshal e (.int .w8 false) (.int (-1))).2 (marshal e (.int .w8 false) (.int 0)).2 = .gt := by
  cases e <;> simp [Encoding.valid] at he <;> decide +kernel

/-- Strings: the longer one comes after, whatever it begins with. -/
theorem C113_strings (e : Encoding) (he : e.valid = true) :
    bytesCmp (marshal e .str (.str [97, 97])).2 (marshal e .str (.str [98])).2 = .gt := by
  cases e <;> simp [Encoding.valid] at he <;> decide +kernel

end Verif.Props
