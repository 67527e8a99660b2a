import Verif.Proofs.Canonical
import Verif.Props.RoundTrip
/-!
# C72: one encoding per value
-/
namespace Verif.Props
open Spec

/-- C72: for a type with one encoding per value (`Spec.canonical`, a condition on the declaration), every byte string
that is accepted starts with what `MarshalBin` / `MarshalBorsh` / `MarshalCompactU16` writes for the value obtained, and
the decoder stops behind it. -/
theorem C72_canonical {e : Encoding} (he : e.valid = true) (t : Ty) (hc : canonical e t false = true) (b : Bytes) (v : Val)
    (d' : Dec) (h : decode t t.zero (Dec.new b e) = (.ok v, d')) :
    ∃ used rest, b = used ++ rest ∧ marshal e t v = (.ok (), used) ∧ d'.pos = used.length ∧ d'.data = b := by
  obtain ⟨h1, tail, c, h2, rfl⟩ := decode_got he t hc _ (Dec.new_ok _ _) rfl v d' h
  rw [Dec.new_rest] at h2
  refine ⟨_, tail, h2, marshal_wire he t v h1, ?_, rfl⟩
  simp [Dec.to, Dec.new]

/-- C72: no two inputs that are consumed to the end give the same value. -/
theorem C72_unique {e : Encoding} (he : e.valid = true) (t : Ty) (hc : canonical e t false = true) (b1 b2 : Bytes) (v : Val)
    (d1 d2 : Dec) (h1 : decode t t.zero (Dec.new b1 e) = (.ok v, d1)) (h2 : decode t t.zero (Dec.new b2 e) = (.ok v, d2))
    (hl1 : left d1 = 0) (hl2 : left d2 = 0) : b1 = b2 := by
  obtain ⟨u1, r1, rfl, hm1, hp1, hd1⟩ := C72_canonical he t hc _ v d1 h1
  obtain ⟨u2, r2, rfl, hm2, hp2, hd2⟩ := C72_canonical he t hc _ v d2 h2
  rw [hm1] at hm2
  have hu : u1 = u2 := (Prod.mk.injEq ..).mp hm2 |>.2
  have z : ∀ (u r : Bytes) (d : Dec), d.pos = u.length → d.data = u ++ r → left d = 0 → r = [] := by
    intro u r d hp hd hl
    unfold left at hl
    rw [hd, hp, List.length_append] at hl
    exact List.length_eq_zero_iff.mp (by omega)
  rw [z _ _ _ hp1 hd1 hl1, z _ _ _ hp2 hd2 hl2, hu]

/-- A struct with a string, an announced slice of big-endian integers (Bin), a nested slice of structs, an array. -/
def canTy (o : Order) : Ty := .struct <|
  .cons { name := [65], tag := { order := o } } (.uint .w16 false) <|
  .cons { name := [83] } (.ptr .str) <|
  .cons { name := [78], tag := { sizeOf := [76] } } (.uint .w8 false) <|
  .cons { name := [76] } (.slice (.struct (.cons { name := [66], tag := { order := o } } (.int .w32 false) .nil))) <|
  .cons { name := [90], tag := { skip := true } } .bool <|
  .cons { name := [122], exported := false } .str <|
  .cons { name := [85] } (.lib .uint128) <|
  .cons { name := [82] } (.array 2 .f64) .nil

example : canonical .bin (canTy .be) false = true ∧ canonical .compactU16 (canTy .be) false = true ∧
    canonical .borsh (canTy .le) false = true := by decide

/-- In Borsh also slices, and C-optional pointers and enums. -/
def canTy' : Ty := .struct <|
  .cons { name := [65], tag := { coption := true } } (.ptr (.slice .str)) <|
  .cons { name := [66] } (.struct <| .cons { name := [69], tag := { isEnum := true } } .borshEnum <|
    .cons { name := [70] } (.struct (.cons { name := [71] } .f32 .nil)) <|
    .cons { name := [72] } (.ptr (.struct (.cons { name := [71] } (.slice (.uint .w8 false)) .nil))) .nil) .nil

example : canonical .borsh canTy' false = true ∧ unmarshal .borsh canTy' canTy'.zero
    ([1, 0, 0, 0] ++ ([1, 0, 0, 0] ++ [2, 0, 0, 0] ++ [104, 105]) ++ [1, 3, 0, 0, 0, 7, 8, 9] ++ [99]) =
    .ok (.struct [.ptr (some (.seq (some [.str [104, 105]]))), .struct [.uint 1, .struct [.float 0],
      .ptr (some (.struct [.seq (some [.uint 7, .uint 8, .uint 9])]))]]) := by
  decide +kernel

/-! What `canonical` leaves out is read from several byte strings as the same value. -/

/-- Booleans and option flags: any non-zero byte (Bin, CompactU16). -/
example : unmarshal .bin .bool (.bool false) [1] = unmarshal .bin .bool (.bool false) [2] := by
  decide +kernel

/-- A present option holding zero. -/
example : let t : Ty := .struct (.cons { name := [65], tag := { option := true } } (.uint .w8 false) .nil)
    unmarshal .borsh t t.zero [1, 0] = unmarshal .borsh t t.zero [0] := by decide +kernel

/-- Slice lengths in Bin are varints, which may be padded. -/
example : unmarshal .bin (.slice (.uint .w16 false)) (.seq none) [1, 5, 0] =
    unmarshal .bin (.slice (.uint .w16 false)) (.seq none) [0x81, 0, 5, 0] := by decide +kernel

/-- Maps: entries in any order, repeated keys (Borsh: the encoder sorts). -/
example : let t : Ty := .map (.uint .w8 false) (.uint .w8 false)
    unmarshal .borsh t t.zero [1, 0, 0, 0, 4, 7] = unmarshal .borsh t t.zero [2, 0, 0, 0, 4, 9, 4, 7] := by decide +kernel

/-- Signalling NaNs outside Borsh. -/
example : unmarshal .bin .f32 (.float 0) [1, 0, 0x80, 0x7f] = unmarshal .bin .f32 (.float 0) [1, 0, 0xc0, 0x7f] := by
  decide +kernel

/-- `SafeString` repairs. -/
example : unmarshal .compactU16 (.lib .safeString) (.str []) [1, 0xff] =
    unmarshal .compactU16 (.lib .safeString) (.str []) [3, 0xef, 0xbf, 0xbd] := by decide +kernel

end Verif.Props
