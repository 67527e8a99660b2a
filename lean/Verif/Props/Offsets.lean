import Verif.Proofs.Offsets
import Verif.Props.Layout
import Verif.Props.FixedSize
import Verif.Props.Sessions
/-!
# C111: A part of a value is found at its offset, and can be read and replaced there
-/
set_option linter.unusedSimpArgs false
namespace Verif.Props
open Spec

/-- The bytes of a part stand at its offset. -/
theorem C111_found {e : Encoding} (he : e.valid = true) (k : Nat) (t : Ty) (v : Val) (q : Place)
    (h : Within e k ⟨.le, false, t, v⟩ ⟨.le, false, t, v⟩ q q) (hv : Encodable e t none v) :
    ∃ b, marshal e t v = (.ok (), b) ∧ k + (wire e q.ty q.order q.sized q.val).length ≤ b.length ∧
      (b.drop k).take (wire e q.ty q.order q.sized q.val).length = wire e q.ty q.order q.sized q.val := by
  refine ⟨_, marshal_wire he t v hv, ?_⟩
  obtain ⟨a, c, ha, hb, -⟩ := Within.stands h
  have hb : wire e t .le false v = a ++ wire e q.ty q.order q.sized q.val ++ c := hb
  subst ha
  rw [hb]
  refine ⟨by simp, ?_⟩
  rw [List.append_assoc, List.drop_left, List.take_left]

/-- A part can be read alone: `SetPosition` to its offset, from wherever the decoder is, then `Decode` into a variable of its type or
of any type with the same layout. -/
theorem C111_read {e : Encoding} (he : e.valid = true) (k : Nat) (t u : Ty) (v w : Val) (q : Place)
    (h : Within e k ⟨.le, false, t, v⟩ ⟨.le, false, t, v⟩ q q) (hq : SameLayout e q ⟨.le, false, u, w⟩) (hv : Encodable e t none v)
    (hw : Supported e u w) (d : Dec) (hd : d.enc = e) (hb : d.data = (marshal e t v).2) (hk : k < d.data.length)
    (hl : d.data.length < 2 ^ 63) :
    ∃ d', (setPosition k >>= fun _ => decode u u.zero) d = (.ok (copy e u w), d') ∧
      d'.pos = k + ((marshal e u w).2.length : Int) ∧ d'.data = d.data := by
  obtain ⟨a, c, ha, hs, -⟩ := Within.stands h
  have hs : wire e t .le false v = a ++ wire e q.ty q.order q.sized q.val ++ c := hs
  have hqw : wire e q.ty q.order q.sized q.val = wire e u .le false w := SameLayout.bytes hq
  rw [marshal_wire he t v hv, hs, hqw] at hb
  simp only [] at hb
  rw [M.bind_ok ((C20_setPosition e d.cur d k (by omega) hd rfl).1 hk)]
  have ht : d.data.take k = a := by rw [hb, ← ha, List.append_assoc, List.take_left]
  have hdr : d.data.drop k = wire e u .le false w ++ c := by rw [hb, ← ha, List.append_assoc, List.drop_left]
  rw [ht, hdr]
  obtain ⟨c', hc⟩ := decode_r he u w hw.1 hw.2 (decAt e d.cur a (wire e u .le false w ++ c)) c rfl (decAt_ok _ _ _ _)
    (decAt_rest _ _ _ _)
  refine ⟨_, hc, ?_, ?_⟩
  · rw [marshal_wire he u w hw.1]
    simp [Dec.to, Dec.adv, decAt, ha]
  · rw [hb]
    simp [Dec.to, Dec.adv, decAt]

/-- A part can be replaced in place: the bytes of the changed value are the old bytes with those of the part replaced. -/
theorem C111_replaced {e : Encoding} (he : e.valid = true) (k : Nat) (t : Ty) (v v' : Val) (q q' : Place)
    (h : Within e k ⟨.le, false, t, v⟩ ⟨.le, false, t, v'⟩ q q') (hv : Encodable e t none v) (hv' : Encodable e t none v') :
    ∃ b, marshal e t v = (.ok (), b) ∧
      marshal e t v' = (.ok (), b.take k ++ wire e q'.ty q'.order q'.sized q'.val ++
        b.drop (k + (wire e q.ty q.order q.sized q.val).length)) := by
  refine ⟨_, marshal_wire he t v hv, ?_⟩
  obtain ⟨a, c, ha, hb, hb'⟩ := Within.stands h
  have hb : wire e t .le false v = a ++ wire e q.ty q.order q.sized q.val ++ c := hb
  have hb' : wire e t .le false v' = a ++ wire e q'.ty q'.order q'.sized q'.val ++ c := hb'
  rw [marshal_wire he t v' hv', hb, hb']
  subst ha
  rw [← List.length_append, List.drop_left, List.append_assoc a (wire e q.ty q.order q.sized q.val) c, List.take_left]

/-- Where the offset is known from the type, the part stands there in the encoding of every supported value that has it. -/
theorem C111_static {e : Encoding} (he : e.valid = true) (t : Ty) (p : List Nat) (k : Nat) (h : offsetOf e t p = some k) (v : Val)
    (q : Place) (hq : partOf e t .le p v = some q) (hv : Supported e t v) :
    ∃ b, marshal e t v = (.ok (), b) ∧
      (b.drop k).take (wire e q.ty q.order q.sized q.val).length = wire e q.ty q.order q.sized q.val := by
  obtain ⟨b, h1, -, h3⟩ := C111_found he k t v q (offset_within t p k h none false .le v q hq hv.1 hv.2) hv.1
  exact ⟨b, h1, h3⟩

/-- Stored values can be searched by comparing the bytes at such an offset (as with `memcmp` filters on account data): where the part
has the type `u` of fixed size, the bytes there are those of `x` exactly when the part is `x`, up to what is not transmitted. -/
theorem C111_filter {e : Encoding} (he : e.valid = true) (t u : Ty) (p : List Nat) (k n : Nat) (h : offsetOf e t p = some k)
    (hn : fixedSize e true u = some n) (v w x : Val) (hq : partOf e t .le p v = some ⟨.le, false, u, w⟩) (hv : Supported e t v)
    (hw : Supported e u w) (hx : Supported e u x) :
    ((((marshal e t v).2.drop k).take n = (marshal e u x).2) → ∃ z, Same e u w z ∧ Same e u x z) ∧
    (w = x → ((marshal e t v).2.drop k).take n = (marshal e u x).2) := by
  obtain ⟨b, h1, h2⟩ := C111_static he t p k h v _ hq hv
  have hlen := wire_size u n hn none .le false false w hw.1 hw.2
  simp only [] at h2
  rw [hlen] at h2
  rw [h1]
  simp only []
  rw [h2, marshal_wire he u x hx.1]
  refine ⟨fun heq => ?_, fun heq => by rw [heq]⟩
  have := C30_unambiguous he u w x hw hx [] (by
    rw [marshal_wire he u w hw.1, marshal_wire he u x hx.1, List.append_nil]; exact heq)
  exact this.2

/-! ### An account

`struct { Kind uint8; Owner [4]uint8; Balance *uint64 "big" in Bin; Slots []struct { Lo, Hi uint16 }; Name string }` -/
section OffsetExample

def accTy (o : Order) : Ty := .struct <|
  .cons (untagged [75]) (.uint .w8 false) <|
  .cons (untagged [79]) (.array 4 (.uint .w8 false)) <|
  .cons { name := [66], tag := { order := o } } (.ptr (.uint .w64 false)) <|
  .cons (untagged [83]) (.slice (.struct (.cons (untagged [76]) (.uint .w16 false) (.cons (untagged [72]) (.uint .w16 false) .nil)))) <|
  .cons (untagged [78]) .str .nil

def accVal (x y : Nat) : Val := .struct [.uint 3, .arr [.uint 1, .uint 2, .uint 3, .uint 4], .ptr (some (.uint 258)),
  .seq (some [.struct [.uint 5, .uint 6], .struct [.uint x, .uint y]]), .str [104, 105]]

/-- offsets of the owner, its third byte, the balance, the slots, and in Borsh of the second slot and its second number; what
comes after the slots has none -/
example : offsetOf .borsh (accTy .le) [1] = some 1 ∧ offsetOf .borsh (accTy .le) [1, 2] = some 3 ∧
    offsetOf .bin (accTy .be) [2] = some 5 ∧ offsetOf .bin (accTy .be) [3] = some 13 ∧
    offsetOf .borsh (accTy .le) [3, 1] = some 21 ∧ offsetOf .borsh (accTy .le) [3, 1, 1] = some 23 ∧
    offsetOf .bin (accTy .be) [3, 1] = none ∧ offsetOf .borsh (accTy .le) [4] = none := by
  decide +kernel

example : (marshal .borsh (accTy .le) (accVal 7 8)).2 = [3, 1, 2, 3, 4, 2, 1, 0, 0, 0, 0, 0, 0,
    2, 0, 0, 0, 5, 0, 6, 0, 7, 0, 8, 0, 2, 0, 0, 0, 104, 105] := by
  decide +kernel

/-- the second number of the second slot: found behind what is before it, and replaced by 513 -/
theorem acc_within : Within .borsh 23 ⟨.le, false, accTy .le, accVal 7 8⟩ ⟨.le, false, accTy .le, accVal 7 513⟩
    ⟨.le, false, .uint .w16 false, .uint 8⟩ ⟨.le, false, .uint .w16 false, .uint 513⟩ := by
  have h : ∃ k, Within .borsh k ⟨.le, false, accTy .le, accVal 7 8⟩ ⟨.le, false, accTy .le, accVal 7 513⟩
      ⟨.le, false, .uint .w16 false, .uint 8⟩ ⟨.le, false, .uint .w16 false, .uint 513⟩ ∧ k = 23 := by
    refine ⟨_, .fieldOf (fun _ => rfl) (.later rfl rfl (.later rfl rfl (.later rfl rfl (.this rfl rfl (by simp [untagged])
      (.sliceElem (pre := [.struct [.uint 5, .uint 6]]) (post := []) rfl
        (.fieldOf (fun _ => rfl) (.later rfl rfl (.this rfl rfl (by simp [untagged]) .here)))))))), ?_⟩
    decide +kernel
  obtain ⟨k, h, rfl⟩ := h
  exact h

example : (marshal .borsh (accTy .le) (accVal 7 513)).2 =
    (marshal .borsh (accTy .le) (accVal 7 8)).2.take 23 ++ [1, 2] ++ (marshal .borsh (accTy .le) (accVal 7 8)).2.drop 25 := by
  decide +kernel

/-- and read alone, after the decoder has been at the end -/
example : ((setPosition 23 >>= fun _ => decode (.uint .w16 false) (.uint 0))
    (decAt .borsh none (marshal .borsh (accTy .le) (accVal 7 8)).2 [])).1 = .ok (.uint 8) := by
  have : (marshal .borsh (accTy .le) (accVal 7 8)).2 = [3, 1, 2, 3, 4, 2, 1, 0, 0, 0, 0, 0, 0,
    2, 0, 0, 0, 5, 0, 6, 0, 7, 0, 8, 0, 2, 0, 0, 0, 104, 105] := by decide +kernel
  rw [this]
  rfl

/-- the balance, big endian in Bin, behind a pointer -/
example : partOf .bin (accTy .be) .le [2] (accVal 7 8) = some ⟨.be, false, .ptr (.uint .w64 false), .ptr (some (.uint 258))⟩ ∧
    ((marshal .bin (accTy .be) (accVal 7 8)).2.drop 5).take 8 = [0, 0, 0, 0, 0, 0, 1, 2] :=
  ⟨rfl, by decide +kernel⟩

theorem acc_supported : Supported .borsh (accTy .le) (accVal 7 8) := by
  constructor
  · simp [accTy, accVal, untagged, Encodable, EncodableFields, Fields.isEnum, announce, Width.bits, Width.bytes, Ty.uintKind, Ty.kind,
      UintElem, lookupSize, absent, maxLen, maxStr]
  · simp [accTy, accVal, untagged, Returns, ReturnsFields, Fields.isEnum, announced, Ty.uintKind, Ty.kind, readMax, wire,
      wireFields, fieldWire, Width.bytes]

/-- searching for the owner: the conditions of `C111_filter` hold -/
example : offsetOf .borsh (accTy .le) [1] = some 1 ∧ fixedSize .borsh true (.array 4 (.uint .w8 false)) = some 4 ∧
    partOf .borsh (accTy .le) .le [1] (accVal 7 8) =
      some ⟨.le, false, .array 4 (.uint .w8 false), .arr [.uint 1, .uint 2, .uint 3, .uint 4]⟩ ∧
    Supported .borsh (.array 4 (.uint .w8 false)) (.arr [.uint 1, .uint 2, .uint 3, .uint 4]) ∧
    ((marshal .borsh (accTy .le) (accVal 7 8)).2.drop 1).take 4 = [1, 2, 3, 4] := by
  refine ⟨by decide +kernel, by decide +kernel, rfl, ⟨?_, ?_⟩, by decide +kernel⟩
  · simp [Encodable, Ty.uintKind, Ty.kind, UintElem, Width.bits, Width.bytes]
  · simp [Returns, Ty.uintKind, Ty.kind]

end OffsetExample

/-- The offset of a part behind an optional field depends on the value: here 1 and 3. -/
theorem C111_optional_moves :
    let t : Ty := .struct (.cons { name := [65], tag := { option := true } } (.ptr (.uint .w16 false)) (.cons (untagged [66]) (.uint .w8 false) .nil))
    Within .borsh 1 ⟨.le, false, t, .struct [.ptr none, .uint 9]⟩ ⟨.le, false, t, .struct [.ptr none, .uint 9]⟩
        ⟨.le, false, .uint .w8 false, .uint 9⟩ ⟨.le, false, .uint .w8 false, .uint 9⟩ ∧
    Within .borsh 3 ⟨.le, false, t, .struct [.ptr (some (.uint 5)), .uint 9]⟩ ⟨.le, false, t, .struct [.ptr (some (.uint 5)), .uint 9]⟩
        ⟨.le, false, .uint .w8 false, .uint 9⟩ ⟨.le, false, .uint .w8 false, .uint 9⟩ ∧
    offsetOf .borsh t [1] = none := by
  intro t
  have h1 : ∃ k, Within .borsh k ⟨.le, false, t, .struct [.ptr none, .uint 9]⟩ ⟨.le, false, t, .struct [.ptr none, .uint 9]⟩
      ⟨.le, false, .uint .w8 false, .uint 9⟩ ⟨.le, false, .uint .w8 false, .uint 9⟩ ∧ k = 1 := by
    refine ⟨_, .fieldOf (fun _ => rfl) (.later rfl rfl (.this rfl rfl (by simp [untagged]) .here)), ?_⟩
    decide +kernel
  have h2 : ∃ k, Within .borsh k ⟨.le, false, t, .struct [.ptr (some (.uint 5)), .uint 9]⟩
      ⟨.le, false, t, .struct [.ptr (some (.uint 5)), .uint 9]⟩
      ⟨.le, false, .uint .w8 false, .uint 9⟩ ⟨.le, false, .uint .w8 false, .uint 9⟩ ∧ k = 3 := by
    refine ⟨_, .fieldOf (fun _ => rfl) (.later rfl rfl (.this rfl rfl (by simp [untagged]) .here)), ?_⟩
    decide +kernel
  obtain ⟨k, h1, rfl⟩ := h1
  obtain ⟨k, h2, rfl⟩ := h2
  exact ⟨h1, h2, by decide +kernel⟩

end Verif.Props
