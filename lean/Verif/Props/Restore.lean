import Verif.Proofs.Settle
import Verif.Props.RoundTrip
/-!
# C74, C75: what was decoded can be stored again, and storing it twice gives the same bytes
-/
namespace Verif.Props
open Spec

/-- C74: for a type that meets `Spec.restorable` (a condition on the declaration), a value that was obtained by decoding
less than 512 MiB — of any origin, canonical or not — is one that `Marshal…` encodes without error, and decoding that gives
the same value again. -/
theorem C74_restores {e : Encoding} (he : e.valid = true) (t : Ty) (hc : restorable e t false = true) (b : Bytes)
    (hb : b.length < 2 ^ 29) (v : Val) (h : unmarshal e t t.zero b = .ok v) :
    ∃ out w, marshal e t v = (.ok (), out) ∧ unmarshal e t t.zero out = .ok w ∧ Same e t v w :=
  let h := decode_fits he t hc b hb v h
  roundtrip he t v ⟨h.1, h.2.1⟩

/-- A struct with an optional map, a repaired string, booleans, a counter and its slice, variable-length integers. -/
def resTy (o : Order) : Ty := .struct <|
  .cons { name := [65], tag := { option := true } } (.map (.uint .w8 false) (.lib .safeString)) <|
  .cons { name := [66] } .bool <|
  .cons { name := [67], tag := { order := o } } (.int .w32 false) <|
  .cons { name := [78], tag := { sizeOf := [76] } } (.uint .w8 false) <|
  .cons { name := [76] } (.slice (.struct (.cons { name := [66] } .f32 .nil))) <|
  .cons { name := [68] } (.ptr (.lib .varint32)) <|
  .cons { name := [69] } (.slice (.map .str (.array 2 .f64))) .nil

example : restorable .bin (resTy .be) false = true ∧ restorable .borsh (resTy .le) false = true := by decide

/-- In CompactU16 without the `SafeString`. -/
example : restorable .compactU16 (.struct <| .cons { name := [65], tag := { option := true } } (.map .str (.lib .hexBytes)) <|
    .cons { name := [66], tag := { option := true } } (.slice (.ptr (.lib .uint128))) .nil) false = true := by decide

/-- Input that no encoder writes: the flag of the option is 7, key 5 occurs twice, a string is not UTF-8,
the boolean is 9, length prefixes and the varint have superfluous groups, and there are two bytes behind it. -/
def resIn : Bytes := [7, 0, 0, 0] ++ ([0x83, 0x00] ++ [5, 1, 97] ++ [4, 0] ++ [5, 0x81, 0x00, 0xff]) ++ [9] ++
  [0xff, 0xff, 0xff, 0xfe] ++ [1] ++ [0, 0, 0xc0, 0x7f] ++ [0x83, 0x00] ++ [0] ++ [1, 2]

/-- What the encoder makes of it. -/
def resOut : Bytes := [1, 0, 0, 0] ++ ([2] ++ [5, 3, 0xef, 0xbf, 0xbd] ++ [4, 0]) ++ [1] ++
  [0xff, 0xff, 0xff, 0xfe] ++ [1] ++ [0, 0, 0xc0, 0x7f] ++ [3] ++ [0]

example : ∃ v, unmarshal .bin (resTy .be) (resTy .be).zero resIn = .ok v ∧ marshal .bin (resTy .be) v = (.ok (), resOut) := by
  refine ⟨.struct [.map (some [(.uint 5, .str [0xef, 0xbf, 0xbd]), (.uint 4, .str [])]), .bool true, .int (-2), .uint 1,
    .seq (some [.struct [.float 0x7fc00000]]), .ptr (some (.int (-2))), .seq (some [])], ?_, ?_⟩ <;> decide +kernel

/-- C74 without the condition on slice elements: `[]EmptyVariant` of three elements, read from four bytes, is written as
one byte, which the decoder refuses. -/
theorem C74_condition_needed :
    unmarshal .bin (.slice (.lib .emptyVariant)) (.seq none) [3, 0, 0, 0] = .ok (.seq (some [.struct [], .struct [], .struct []])) ∧
    marshal .bin (.slice (.lib .emptyVariant)) (.seq (some [.struct [], .struct [], .struct []])) = (.ok (), [3]) ∧
    unmarshal .bin (.slice (.lib .emptyVariant)) (.seq none) [3] = .err .eof := by
  decide +kernel

/-- Nor can the condition on map keys be dropped: a map with a NaN as key is decoded, and the encoder panics on it. -/
theorem C74_keys_needed :
    unmarshal .bin (.map .f64 .bool) (.map none) [1, 0, 0, 0, 0, 0, 0, 0xf8, 0x7f, 1] =
      .ok (.map (some [(.float 0x7ff8000000000000, .bool true)])) ∧
    (marshal .bin (.map .f64 .bool) (.map (some [(.float 0x7ff8000000000000, .bool true)]))).1 = .panic := by
  decide +kernel

/-- C75: store a decoded value, load it, store it again: the second time the same bytes are written. -/
theorem C75_settles {e : Encoding} (he : e.valid = true) (t : Ty) (hc : restorable e t false = true) (b out : Bytes)
    (hb : b.length < 2 ^ 29) (ho : out.length < 2 ^ 29) (v : Val) (h : unmarshal e t t.zero b = .ok v)
    (hm : marshal e t v = (.ok (), out)) :
    ∃ w, unmarshal e t t.zero out = .ok w ∧ marshal e t w = (.ok (), out) := by
  obtain ⟨h1, h2, h3⟩ := decode_fits he t hc b hb v h
  have hout : out = wire e t .le false v := by
    rw [marshal_wire he t v h1] at hm
    exact ((Prod.mk.injEq ..).mp hm).2.symm
  have hw := unmarshal_wire he t v ⟨h1, h2⟩ []
  rw [List.append_nil, ← hout] at hw
  refine ⟨_, hw, ?_⟩
  rw [marshal_wire he t _ (decode_fits he t hc out ho _ hw).1, (copy_settled t false v none hc h1 h3).2, hout]

example : unmarshal .bin (resTy .be) (resTy .be).zero resOut = unmarshal .bin (resTy .be) (resTy .be).zero resIn := by
  decide +kernel

/-- For values that were not decoded this does not hold: an empty slice in an optional Borsh field is present the first time
and absent the second time; a skipped field can do the same in every encoding. -/
theorem C75_decoded_needed :
    let t : Ty := .struct (.cons { name := [65], tag := { option := true } } (.slice .bool) .nil)
    let u : Ty := .struct (.cons { name := [65], tag := { option := true } }
      (.struct (.cons { name := [66] } .bool (.cons { name := [67], tag := { skip := true } } .bool .nil))) .nil)
    marshal .borsh t (.struct [.seq (some [])]) = (.ok (), [1, 0, 0, 0, 0]) ∧
    unmarshal .borsh t t.zero [1, 0, 0, 0, 0] = .ok (.struct [.seq none]) ∧
    marshal .borsh t (.struct [.seq none]) = (.ok (), [0]) ∧
    marshal .bin u (.struct [.struct [.bool false, .bool true]]) = (.ok (), [1, 0, 0, 0, 0]) ∧
    unmarshal .bin u u.zero [1, 0, 0, 0, 0] = .ok (.struct [.struct [.bool false, .bool false]]) ∧
    marshal .bin u (.struct [.struct [.bool false, .bool false]]) = (.ok (), [0, 0, 0, 0]) := by
  decide +kernel

end Verif.Props
