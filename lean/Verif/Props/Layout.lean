import Verif.Proofs.Layout
import Verif.Props.RoundTrip
/-!
# C110: Types with the same layout are interchangeable
-/
set_option linter.unusedSimpArgs false
namespace Verif.Props
open Spec

/-- Values with the same layout have the same bytes. -/
theorem C110_same_bytes {e : Encoding} (he : e.valid = true) (t u : Ty) (v w : Val)
    (h : SameLayout e ⟨.le, false, t, v⟩ ⟨.le, false, u, w⟩) (hv : Encodable e t none v) (hw : Encodable e u none w) :
    marshal e t v = marshal e u w := by
  rw [marshal_wire he t v hv, marshal_wire he u w hw]
  exact congrArg (Prod.mk _) (SameLayout.bytes h)

/-- What was written as one type is read as the other one: the reader gets what it would get from its own encoder. -/
theorem C110_read_as {e : Encoding} (he : e.valid = true) (t u : Ty) (v w : Val)
    (h : SameLayout e ⟨.le, false, t, v⟩ ⟨.le, false, u, w⟩) (hv : Encodable e t none v) (hw : Supported e u w) (tail : Bytes) :
    ∃ b, marshal e t v = (.ok (), b) ∧ unmarshal e u u.zero (b ++ tail) = .ok (copy e u w) ∧ Same e u w (copy e u w) := by
  refine ⟨_, marshal_wire he t v hv, ?_, same_copy u none w hw.1 hw.2⟩
  have hb : wire e t .le false v = wire e u .le false w := SameLayout.bytes h
  rw [hb]
  exact unmarshal_wire he u w hw tail

/-- An embedded struct makes no difference: `struct { A; rest }` and `struct { fields of A; rest }`. -/
theorem C110_embedded {e : Encoding} (he : e.valid = true) (name : Bytes) (fs gs : Fields) (us vs : List Val)
    (hf : recordIn e fs) (hg : recordIn e (thenFields fs gs)) (ha : announcesNone fs = true) (hl : us.length = fs.length)
    (h1 : Encodable e (.struct (.cons (untagged name) (.struct fs) gs)) none (.struct (.struct us :: vs)))
    (h2 : Encodable e (.struct (thenFields fs gs)) none (.struct (us ++ vs))) :
    marshal e (.struct (.cons (untagged name) (.struct fs) gs)) (.struct (.struct us :: vs)) =
      marshal e (.struct (thenFields fs gs)) (.struct (us ++ vs)) :=
  C110_same_bytes he _ _ _ _ (.struct (fun _ => untagged_enum _ _ _) hg (.embed hf ha hl .asIs)) h1 h2

/-- A map and the slice of its entries, in the order in which they are written. -/
theorem C110_pairs {e : Encoding} (he : e.valid = true) (k t : Ty) (m : List (Val × Val)) (nk nt : Bytes)
    (h1 : Encodable e (.map k t) none (.map (some m)))
    (h2 : Encodable e (.slice (pairTy nk nt k t)) none (.seq (some ((entries e k m).map pairVal)))) :
    marshal e (.map k t) (.map (some m)) =
      marshal e (.slice (pairTy nk nt k t)) (.seq (some ((entries e k m).map pairVal))) :=
  C110_same_bytes he _ _ _ _ .pairs h1 h2

/-- An optional pointer of Borsh is Rust's `Option`, the enum with the variants `None` and `Some`. -/
theorem C110_option (name name' n0 n1 n2 : Bytes) (t : Ty) (p : Option Val) (ht : t.asLib = none)
    (h1 : Encodable .borsh (.struct (.cons { name := name, tag := { option := true } } (.ptr t) .nil)) none (.struct [.ptr p]))
    (h2 : Encodable .borsh (.struct (.cons (untagged name') (optionTy n0 n1 n2 t) .nil)) none (.struct [optionVal t p])) :
    marshal .borsh (.struct (.cons { name := name, tag := { option := true } } (.ptr t) .nil)) (.struct [.ptr p]) =
      marshal .borsh (.struct (.cons (untagged name') (optionTy n0 n1 n2 t) .nil)) (.struct [optionVal t p]) :=
  C110_same_bytes rfl _ _ _ _ (.struct (fun _ => rfl) (fun _ => untagged_enum _ _ _) (.option rfl ht .noFields)) h1 h2

/-! ### Two views of the same bytes

`struct { H struct { Seq uint32; Up bool }; P [2]uint16; M map[uint8]int16; N *Int64 }` and
`struct { Seq uint32; Up uint8; X, Y uint16; M []struct { K uint8; V int16 }; Note string "skip"; N int64 }`. -/
section LayoutExample

def headFs : Fields := .cons (untagged [83]) (.uint .w32 false) (.cons (untagged [85]) .bool .nil)

def viewA : Ty := .struct <|
  .cons (untagged [72]) (.struct headFs) <|
  .cons (untagged [80]) (.array 2 (.uint .w16 false)) <|
  .cons (untagged [77]) (.map (.uint .w8 false) (.int .w16 false)) <|
  .cons (untagged [78]) (.ptr (.lib .int64)) .nil

def viewB : Ty := .struct <|
  .cons (untagged [83]) (.uint .w32 false) <|
  .cons (untagged [85]) (.uint .w8 false) <|
  .cons (untagged [88]) (.uint .w16 false) <|
  .cons (untagged [89]) (.uint .w16 false) <|
  .cons (untagged [77]) (.slice (pairTy [75] [86] (.uint .w8 false) (.int .w16 false))) <|
  .cons { name := [110], tag := { skip := true } } .str <|
  .cons (untagged [78]) (.int .w64 false) .nil

def valA : Val := .struct [.struct [.uint 258, .bool true], .arr [.uint 3, .uint 4],
  .map (some [(.uint 7, .int (-1)), (.uint 2, .int 5)]), .ptr (some (.int (-9)))]

def valB (e : Encoding) : Val := .struct [.uint 258, .uint 1, .uint 3, .uint 4,
  .seq (some ((entries e (.uint .w8 false) [(.uint 7, .int (-1)), (.uint 2, .int 5)]).map pairVal)), .str [104], .int (-9)]

theorem views_same (e : Encoding) : SameLayout e ⟨.le, false, viewA, valA⟩ ⟨.le, false, viewB, valB e⟩ := by
  refine .struct (fun _ => rfl) (fun _ => rfl) (.embed (fun _ => rfl) rfl rfl ?_)
  refine .field rfl rfl rfl rfl rfl rfl rfl (by simp [untagged]) (.refl _) ?_
  refine .field rfl rfl rfl rfl rfl rfl rfl (by simp [untagged]) .oneByte ?_
  -- the array is a struct of two numbers, embedded
  refine .chain (gs := .cons (untagged [80]) (.struct (sameFields (.uint .w16 false) [[88], [89]])) _)
    (ws := .struct [.uint 3, .uint 4] :: _)
    (.field rfl rfl rfl rfl rfl rfl rfl (by simp [untagged]) (.tuple rfl rfl) .asIs) ?_
  refine .embed (fun _ => rfl) rfl rfl ?_
  refine .field rfl rfl rfl rfl rfl rfl rfl (by simp [untagged]) (.refl _) ?_
  refine .field rfl rfl rfl rfl rfl rfl rfl (by simp [untagged]) (.refl _) ?_
  refine .field rfl rfl rfl rfl rfl rfl rfl (by simp [untagged]) .pairs ?_
  refine .swap (.drop (.inl rfl) (.swap ?_))
  exact .field rfl rfl rfl rfl rfl rfl rfl (by simp [untagged])
    (.trans (.pointer fun _ => by simp [Ty.asLib]) (.libInt64 fun _ => rfl)) .noFields

/-- the same bytes, and what they are -/
example : marshal .bin viewA valA = marshal .bin viewB (valB .bin) ∧
    (marshal .bin viewA valA).2 =
      [2, 1, 0, 0, 1, 3, 0, 4, 0, 2, 7, 255, 255, 2, 5, 0, 247, 255, 255, 255, 255, 255, 255, 255] := by
  decide +kernel

theorem valB_borsh : valB .borsh = .struct [.uint 258, .uint 1, .uint 3, .uint 4,
    .seq (some [.struct [.uint 2, .int 5], .struct [.uint 7, .int (-1)]]), .str [104], .int (-9)] := by
  simp [valB, entries, ascending, List.mergeSort, List.MergeSort.Internal.splitInTwo, rankLe, keyRank, pairVal, List.splitAt,
    List.splitAt.go, List.merge]

example : marshal .borsh viewA valA = marshal .borsh viewB (valB .borsh) ∧
    (marshal .borsh viewA valA).2 =
      [2, 1, 0, 0, 1, 3, 0, 4, 0, 2, 0, 0, 0, 2, 5, 0, 7, 255, 255, 247, 255, 255, 255, 255, 255, 255, 255] := by
  rw [valB_borsh]
  decide +kernel

end LayoutExample

/-- the hypotheses of the theorems hold of an optional pointer and of an embedded struct -/
example : marshal .borsh (.struct (.cons { name := [65], tag := { option := true } } (.ptr (.uint .w16 false)) .nil))
      (.struct [.ptr (some (.uint 5))]) =
    marshal .borsh (.struct (.cons (untagged [66]) (optionTy [69] [78] [83] (.uint .w16 false)) .nil))
      (.struct [.struct [.uint 1, .struct [], .uint 5]]) :=
  C110_option [65] [66] [69] [78] [83] (.uint .w16 false) (some (.uint 5)) rfl
    (by simp [Encodable, EncodableFields, Fields.isEnum, announce, Width.bits, Width.bytes])
    (by simp [Encodable, EncodableFields, EncodableNth, optionTy, optionVal, Fields.isEnum, announce, Width.bits, Width.bytes, untagged,
      payloadOk, payloadBase])
example : marshal .borsh (.struct (.cons { name := [65], tag := { option := true } } (.ptr (.uint .w16 false)) .nil))
      (.struct [.ptr (some (.uint 5))]) = (.ok (), [1, 5, 0]) := rfl

/-- an array of booleans, read as an array of a named byte type -/
example : ∃ b, marshal .bin (.array 2 .bool) (.arr [.bool true, .bool false]) = (.ok (), b) ∧
    unmarshal .bin (.array 2 (.uint .w8 true)) (Ty.array 2 (.uint .w8 true)).zero (b ++ [9]) = .ok (.arr [.uint 1, .uint 0]) := by
  obtain ⟨b, h1, h2, _⟩ := C110_read_as (e := .bin) rfl (.array 2 .bool) (.array 2 (.uint .w8 true))
    (.arr [.bool true, .bool false]) (.arr [.uint 1, .uint 0])
    (.array rfl rfl (.elem .oneByte (.elem .oneByte .noElems)))
    (by simp [Encodable, Ty.uintKind, Ty.kind])
    ⟨by simp [Encodable, Ty.uintKind, Ty.kind, UintElem, Width.bits, Width.bytes], by simp [Returns, Ty.uintKind, Ty.kind]⟩ [9]
  exact ⟨b, h1, by simpa [copy, Ty.uintKind, Ty.kind] using h2⟩

/-! ### Pairs of types that look alike and are not

These are the reasons for the conditions of the rules. -/

/-- `SafeString` and `string` differ in Bin, and agree in the others. -/
theorem C110_strings (s : Bytes) (hs : s.length < 2 ^ 16) :
    (marshal .bin (.lib .safeString) (.str s)).2 ≠ (marshal .bin .str (.str s)).2 ∧
    (∀ e, e = .borsh ∨ e = .compactU16 → marshal e (.lib .safeString) (.str s) = marshal e .str (.str s)) := by
  constructor
  · rw [marshal_wire rfl _ _ (by simp [Encodable, LibEnc, maxLen]; omega), marshal_wire rfl _ _ (by simp [Encodable, maxStr]; omega)]
    intro h
    have hl := congrArg List.length h
    simp only [wire, libWire, strPrefix, lenPrefix, if_true, List.length_append, fixed_length] at hl
    have : (varint s.length).length < 8 := by
      unfold varint; split
      · simp
      · unfold varint; split
        · simp
        · unfold varint; split
          · simp
          · omega
    omega
  · rintro e (rfl | rfl)
    · exact C110_same_bytes rfl _ _ _ _ (.libString (by simp)) (by simp [Encodable, LibEnc, maxLen]; omega)
        (by simp [Encodable, maxStr, maxLen]; omega)
    · exact C110_same_bytes rfl _ _ _ _ (.libString (by simp)) (by simp [Encodable, LibEnc, maxLen]; omega)
        (by simp [Encodable, maxStr, maxLen]; omega)
example : ([104] : Bytes).length < 2 ^ 16 ∧ (marshal .bin (.lib .safeString) (.str [104])).2 = [1, 104] ∧
    (marshal .bin .str (.str [104])).2 = [1, 0, 0, 0, 0, 0, 0, 0, 104] := ⟨by decide, rfl, rfl⟩

/-- A `Varuint16` alone and a `[1]Varuint16` differ, in every encoding. -/
theorem C110_varint_array (e : Encoding) (he : e.valid = true) :
    (marshal e (.lib .varuint16) (.uint 5)).2 = [5] ∧ (marshal e (.array 1 (.lib .varuint16)) (.arr [.uint 5])).2 = [5, 0] := by
  cases e <;> simp [Encoding.valid] at he <;> exact ⟨by decide +kernel, by decide +kernel⟩

/-- In Borsh, the library's `Int64` obeys a byte-order tag and `int64` does not. -/
theorem C110_borsh_order (t : Ty) (ht : t = .lib .int64 ∨ t = .int .w64 false) :
    (marshal .borsh (.struct (.cons { name := [65], tag := { order := .be } } t .nil)) (.struct [.int 1])).2 =
      if t.asLib = none then [1, 0, 0, 0, 0, 0, 0, 0] else [0, 0, 0, 0, 0, 0, 0, 1] := by
  rcases ht with rfl | rfl <;> decide +kernel

/-- A nil pointer is its target's zero value in Borsh and nothing in the others. -/
theorem C110_nil (e : Encoding) (he : e.valid = true) :
    (marshal e (.ptr (.uint .w16 false)) (.ptr none)).2 = if e = .borsh then [0, 0] else [] := by
  cases e <;> simp [Encoding.valid] at he <;> decide +kernel

end Verif.Props
