import Verif.Proofs.Zeroed
import Verif.Proofs.SizeBlank
import Verif.Props.Robust
import Verif.Props.Size
/-!
# C115: Buffers filled with zeros
-/
set_option linter.unusedSimpArgs false
namespace Verif.Props
open Spec

/-- `Spec.blank` is written as zero bytes only. -/
theorem C115_written {e : Encoding} (he : e.valid = true) (t : Ty) (h : Encodable e t none (blank e t)) :
    (marshal e t (blank e t)).1 = .ok () ∧
    (marshal e t (blank e t)).2 = List.replicate (marshal e t (blank e t)).2.length 0 := by
  rw [marshal_wire he t _ h]
  exact ⟨rfl, (blank_wire (e := e) t .le false).eq⟩

/-- A buffer of zeros that is long enough is read as it, whatever the length. -/
theorem C115_read {e : Encoding} (he : e.valid = true) (t : Ty) (h : Supported e t (blank e t)) (n : Nat)
    (hn : (marshal e t (blank e t)).2.length ≤ n) : unmarshal e t t.zero (List.replicate n 0) = .ok (blank e t) := by
  rw [marshal_wire he t _ h.1] at hn
  have hz := (blank_wire (e := e) t .le false).eq
  have := unmarshal_wire he t _ h (List.replicate (n - (wire e t .le false (blank e t)).length) 0)
  rw [hz, List.replicate_append_replicate, blank_copy (e := e) t] at this
  rw [← this]
  congr 2
  simp only [List.length_replicate] at hn ⊢
  omega

/-- A shorter one is refused, if there are no extension fields. -/
theorem C115_short {e : Encoding} (he : e.valid = true) (t : Ty) (h : Supported e t (blank e t)) (hx : noExtension t = true) (n : Nat)
    (hn : n < (marshal e t (blank e t)).2.length) : ∃ x, unmarshal e t t.zero (List.replicate n 0) = .err x := by
  refine C32_truncated he t _ h hx (List.replicate n 0) (List.replicate ((marshal e t (blank e t)).2.length - n) 0) ?_ ?_
  · rw [List.replicate_append_replicate, Nat.add_sub_cancel' (Nat.le_of_lt hn)]
    exact (C115_written he t h.1).2
  · intro h0
    have := congrArg List.length h0
    simp at this
    omega

/-- How many zeros are enough is known from the declaration: as many as the least size for reading (C114). -/
theorem C115_exactly {e : Encoding} (he : e.valid = true) (t : Ty) (h : Supported e t (blank e t)) (hn : NoEnum e t = true)
    (hx : noExtension t = true) (n : Nat) :
    unmarshal e t t.zero (List.replicate n 0) = .ok (blank e t) ↔ least true e t false ≤ n := by
  have hl : (marshal e t (blank e t)).2.length = least true e t false := by
    rw [marshal_wire he t _ h.1]; exact blank_size (e := e) t .le false hn hx h.2
  constructor
  · intro hr
    by_cases hlt : n < least true e t false
    · exact absurd hr (C114_short he t _ (by simpa using hlt) _)
    · omega
  · exact fun hle => C115_read he t h n (by omega)

/-- So the least size for reading is reached: some input of that length is accepted, and none that is shorter. -/
theorem C114_least_read {e : Encoding} (he : e.valid = true) (t : Ty) (h : Supported e t (blank e t)) (hn : NoEnum e t = true)
    (hx : noExtension t = true) :
    (∃ b v, b.length = least true e t false ∧ unmarshal e t t.zero b = .ok v) ∧
    ∀ b v, unmarshal e t t.zero b = .ok v → least true e t false ≤ b.length := by
  refine ⟨⟨List.replicate (least true e t false) 0, blank e t, by simp, (C115_exactly he t h hn hx _).2 (Nat.le_refl _)⟩, fun b v hr => ?_⟩
  by_cases hlt : b.length < least true e t false
  · exact absurd hr (C114_short he t b hlt v)
  · omega

/-- For `Straight` types that is the zero value: reading a zeroed buffer leaves a fresh variable as it was, and the zero value is written as
zeros. -/
theorem C115_zero {e : Encoding} (he : e.valid = true) (t : Ty) (hs : Straight e t = true) (h : Supported e t t.zero) (n : Nat)
    (hn : (marshal e t t.zero).2.length ≤ n) :
    unmarshal e t t.zero (List.replicate n 0) = .ok t.zero ∧ (marshal e t t.zero).2 = List.replicate (marshal e t t.zero).2.length 0 := by
  have hb := blank_zero (e := e) t hs
  rw [← hb] at h hn
  have h1 := C115_read he t h n hn
  have h2 := (C115_written he t h.1).2
  rw [hb] at h1 h2
  exact ⟨h1, h2⟩

/-- `struct { Owner [4]byte; Amount uint64; Name string; Delegate *uint16 \`bin:"optional"\`; Next *bool; Log []uint16; Skip uint8 \`bin:"-"\` }` -/
def accountTy : Ty := .struct (.cons { name := [79] } (.array 4 (.uint .w8 false)) (.cons { name := [65] } (.uint .w64 false)
  (.cons { name := [78] } .str (.cons { name := [68], tag := { option := true } } (.ptr (.uint .w16 false))
  (.cons { name := [88] } (.ptr .bool) (.cons { name := [76] } (.slice (.uint .w16 false))
  (.cons { name := [83], tag := { skip := true } } (.uint .w8 false) .nil)))))))

theorem accountTy_supported {e : Encoding} (he : e.valid = true) : Supported e accountTy (blank e accountTy) := by
  constructor
  · cases e <;> simp [Encoding.valid] at he <;>
      simp [accountTy, blank, blankFields, Ty.zero, Encodable, EncodableFields, announce, Fields.isEnum, Ty.uintKind, Ty.kind, UintElem,
        Width.bits, Width.bytes, absent, Ty.isZero, maxStr, maxLen, lookupSize]
  · cases e <;> simp [Encoding.valid] at he <;>
      simp [accountTy, blank, blankFields, Ty.zero, Returns, ReturnsFields, Fields.isEnum, Ty.uintKind, Ty.kind, absent, Ty.isZero, announced,
        readMax, Ty.asLib, Ty.directLib]

example : (marshal .borsh accountTy (blank .borsh accountTy)).2.length = 22 ∧ (marshal .bin accountTy (blank .bin accountTy)).2.length = 26 := by
  decide +kernel
/-- a zeroed buffer of any length from 22 on -/
example (n : Nat) (hn : 22 ≤ n) : unmarshal .borsh accountTy accountTy.zero (List.replicate n 0) =
    .ok (.struct [.arr [.uint 0, .uint 0, .uint 0, .uint 0], .uint 0, .str [], .ptr none, .ptr (some (.bool false)), .seq none, .uint 0]) :=
  C115_read rfl accountTy (accountTy_supported rfl) n (by
    have : (marshal .borsh accountTy (blank .borsh accountTy)).2.length = 22 := by decide +kernel
    omega)
example : unmarshal .bin accountTy accountTy.zero (List.replicate 40 0) =
    .ok (.struct [.arr [.uint 0, .uint 0, .uint 0, .uint 0], .uint 0, .str [], .ptr none, .ptr (some (.bool false)), .seq (some []), .uint 0]) := rfl
example (n : Nat) (hn : n < 22) : ∃ x, unmarshal .borsh accountTy accountTy.zero (List.replicate n 0) = .err x :=
  C115_short rfl accountTy (accountTy_supported rfl) rfl n (by
    have : (marshal .borsh accountTy (blank .borsh accountTy)).2.length = 22 := by decide +kernel
    omega)
example (n : Nat) : unmarshal .compactU16 accountTy accountTy.zero (List.replicate n 0) = .ok (blank .compactU16 accountTy) ↔ 16 ≤ n :=
  C115_exactly rfl accountTy (accountTy_supported rfl) (by decide) (by decide) n
example (b : Bytes) (v : Val) (h : unmarshal .bin accountTy accountTy.zero b = .ok v) : 26 ≤ b.length :=
  (C114_least_read (e := .bin) rfl accountTy (accountTy_supported rfl) (by decide) (by decide)).2 b v h
/-- `Next *bool` is not nil after reading zeros -/
example : Straight .borsh accountTy = false ∧ Straight .borsh (.struct (.cons { name := [65] } (.array 3 .str)
    (.cons { name := [66], tag := { option := true } } (.ptr .str) (.cons { name := [67] } (.slice .str) .nil)))) = true := by decide
example (n : Nat) (hn : 17 ≤ n) :
    let t : Ty := .struct (.cons { name := [65] } (.array 3 .str) (.cons { name := [66], tag := { option := true } } (.ptr .str)
      (.cons { name := [67] } (.slice .str) .nil)))
    unmarshal .borsh t t.zero (List.replicate n 0) = .ok t.zero := by
  intro t
  refine (C115_zero rfl t (by decide) ?_ n ?_).1
  · constructor
    · simp [t, Ty.zero, Fields.zeros, Encodable, EncodableFields, announce, Fields.isEnum, Ty.uintKind, Ty.kind, absent, Ty.isZero, maxStr, maxLen,
        lookupSize]
    · simp [t, Ty.zero, Fields.zeros, Returns, ReturnsFields, Fields.isEnum, Ty.uintKind, Ty.kind, absent, Ty.isZero, announced, readMax, Ty.asLib,
        Ty.directLib]
  · have : (marshal .borsh t t.zero).2.length = 17 := by decide +kernel
    omega

/-- a Borsh enum: zeros are its first variant -/
example :
    let t : Ty := .struct (.cons { name := [69], tag := { isEnum := true } } .borshEnum (.cons { name := [66] } (.ptr (.uint .w32 false))
      (.cons { name := [65] } (.struct .nil) .nil)))
    blank .borsh t = .struct [.uint 0, .ptr (some (.uint 0)), .struct []] ∧
    unmarshal .borsh t t.zero (List.replicate 9 0) = .ok (.struct [.uint 0, .ptr (some (.uint 0)), .struct []]) := ⟨rfl, rfl⟩

/-- The zero value itself need not be what zeros stand for: Bin writes nothing for a nil pointer, so that the byte that is read for it belongs
to the field after it. -/
theorem C115_nil_pointer :
    let t : Ty := .struct (.cons { name := [65] } (.ptr (.uint .w8 false)) (.cons { name := [66] } (.uint .w8 false) .nil))
    (marshal .bin t t.zero).2 = [0] ∧ (marshal .bin t (blank .bin t)).2 = [0, 0] ∧ Straight .bin t = false := by decide +kernel

end Verif.Props
