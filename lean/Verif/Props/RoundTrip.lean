import Verif.Proofs.KeyEq
import Verif.Props.Encode
import Verif.Proofs.Same
import Verif.Proofs.ValEq
/-!
# C27–C30: what is marshalled is unmarshalled

`Spec.Encodable` says which values have an encoding, `Spec.Returns` which of those the decoder can read back (both are
defined on types and values alone), `Spec.copy` is the exact value read back, `Spec.Same` is equality of Go values up to
nil against empty and what is not transmitted.
-/
namespace Verif.Props
open Spec

/-- A supported value: it has an encoding and the decoder accepts it. -/
def Supported (e : Encoding) (t : Ty) (v : Val) : Prop := Encodable e t none v ∧ Returns e t false v

theorem unmarshal_wire {e : Encoding} (he : e.valid = true) (t : Ty) (v : Val) (h : Supported e t v) (tail : Bytes) :
    unmarshal e t t.zero (wire e t .le false v ++ tail) = .ok (copy e t v) := by
  unfold unmarshal
  obtain ⟨c, hc⟩ := decode_r he t v h.1 h.2 (Dec.new (wire e t .le false v ++ tail) e) tail rfl (Dec.new_ok _ _)
    (Dec.new_rest _ _)
  rw [hc]

theorem roundtrip {e : Encoding} (he : e.valid = true) (t : Ty) (v : Val) (h : Supported e t v) :
    ∃ b w, marshal e t v = (.ok (), b) ∧ unmarshal e t t.zero b = .ok w ∧ Same e t v w := by
  refine ⟨_, _, marshal_wire he t v h.1, ?_, same_copy t none v h.1 h.2⟩
  have := unmarshal_wire he t v h []
  rwa [List.append_nil] at this

/-- C27: `UnmarshalBorsh` into a fresh variable of what `MarshalBorsh` produced. -/
theorem C27_borsh_roundtrip (t : Ty) (v : Val) (h : Supported .borsh t v) :
    ∃ b w, marshal .borsh t v = (.ok (), b) ∧ unmarshal .borsh t t.zero b = .ok w ∧ Same .borsh t v w :=
  roundtrip rfl t v h

/-- C28: `UnmarshalBin` of what `MarshalBin` produced. -/
theorem C28_bin_roundtrip (t : Ty) (v : Val) (h : Supported .bin t v) :
    ∃ b w, marshal .bin t v = (.ok (), b) ∧ unmarshal .bin t t.zero b = .ok w ∧ Same .bin t v w :=
  roundtrip rfl t v h

/-- C29: `UnmarshalCompactU16` of what `MarshalCompactU16` produced. -/
theorem C29_compact_roundtrip (t : Ty) (v : Val) (h : Supported .compactU16 t v) :
    ∃ b w, marshal .compactU16 t v = (.ok (), b) ∧ unmarshal .compactU16 t t.zero b = .ok w ∧ Same .compactU16 t v w :=
  roundtrip rfl t v h

/-- A struct with a nested struct, a pointer, an optional pointer (absent), a slice of structs, a map, a `sizeof` pair, an
array, a skipped and an unexported field, library types, and a trailing extension field. -/
def rtTy (o : Order) : Ty := .struct <|
  .cons { name := [65], tag := { order := o } } (.uint .w16 false) <|
  .cons { name := [83] } (.ptr .str) <|
  .cons { name := [77] } (.map (.uint .w8 false) (.slice (.uint .w16 false))) <|
  .cons { name := [80], tag := { option := true } } (.ptr (.int .w8 false)) <|
  .cons { name := [81], tag := { option := true } } (.ptr (.int .w8 false)) <|
  .cons { name := [78], tag := { sizeOf := [76] } } (.uint .w8 false) <|
  .cons { name := [76] } (.slice (.struct (.cons { name := [66] } .bool .nil))) <|
  .cons { name := [90], tag := { skip := true } } (.uint .w8 false) <|
  .cons { name := [122], exported := false } .str <|
  .cons { name := [85] } (.lib .uint128) <|
  .cons { name := [72] } (.lib .hexBytes) <|
  .cons { name := [82] } (.array 2 .f32) <|
  .cons { name := [88], tag := { binExt := true } } (.int .w32 false) .nil

def rtVal : Val := .struct [.uint 513, .ptr (some (.str [104, 105])),
  .map (some [(.uint 9, .seq (some [.uint 300])), (.uint 4, .seq none)]), .ptr none, .ptr (some (.int (-2))), .uint 2,
  .seq (some [.struct [.bool true], .struct [.bool false]]), .uint 9, .str [1], .u128 1 2 (some .be), .bytes none,
  .arr [.float 0x3f800000, .float 0], .int (-7)]

theorem uint_keyEq_comm (x y : Val) : (Ty.uint .w8 false).keyEq x y = (Ty.uint .w8 false).keyEq y x := by
  rw [Bool.eq_iff_iff]
  exact ⟨keyEq_comm _, keyEq_comm _⟩

theorem copy_uint (e : Encoding) (v : Val) : copy e (.uint .w8 false) v = v := by
  cases v <;> simp [copy]

theorem rt_supported (e : Encoding) (he : e.valid = true) (o : Order) (ho : e = .borsh → o = .le) :
    Supported e (rtTy o) rtVal := by
  constructor
  · cases e <;> simp [Encoding.valid] at he <;>
      simp [rtTy, rtVal, Encodable, EncodableFields, announce, sizeofVal, Ty.kind, Ty.uintKind, lookupSize, LibEnc,
        maxStr, maxLen, Fields.isEnum, Width.bits, Width.bytes, orderedKey, Ty.keyEq, Val.plainEq, toSigned, UintElem, absent,
        Ty.isZero, signalling32, isNaN32]
  · have hd : (entries e (.uint .w8 false)
        [(Val.uint 9, Val.seq (some [Val.uint 300])), (Val.uint 4, Val.seq none)]).Pairwise
          (fun x y => (Ty.uint .w8 false).keyEq (copy e (.uint .w8 false) x.1) (copy e (.uint .w8 false) y.1) = false) := by
      refine ((entries_perm e _ _).symm.pairwise_iff ?_).mp ?_
      · intro x y h
        rw [copy_uint, copy_uint] at h ⊢
        rw [uint_keyEq_comm]; exact h
      · simp [copy, Ty.keyEq, Val.plainEq]
    have hne : ∀ (o : Order) (w : Width) n, fixed o w.bytes n ≠ [] := by
      intro o w n h
      have := congrArg List.length h
      rw [fixed_length] at this
      cases w <;> cases this
    cases e <;> simp [Encoding.valid] at he <;>
      simp [rtTy, rtVal, Returns, ReturnsFields, readMax, LibRet, announced, Ty.asLib, Ty.directLib, Ty.uintKind, Ty.kind,
        absent, Ty.isZero, wire, wireFields, fieldWire, Fields.isEnum, hne, ho] <;>
      exact hd

/-- The example in Borsh, decoded: map sorted, skipped, unexported and absent fields zero, `HexBytes` not nil, empty
slices nil. -/
example : unmarshal .borsh (rtTy .le) (rtTy .le).zero (marshal .borsh (rtTy .le) rtVal).2 = .ok (.struct [.uint 513,
    .ptr (some (.str [104, 105])), .map (some [(.uint 4, .seq none), (.uint 9, .seq (some [.uint 300]))]), .ptr none,
    .ptr (some (.int (-2))), .uint 2, .seq (some [.struct [.bool true], .struct [.bool false]]), .uint 0, .str [],
    .u128 1 2 none, .bytes (some []), .arr [.float 0x3f800000, .float 0], .int (-7)]) := by
  decide +kernel

example : unmarshal .bin (rtTy .be) (rtTy .be).zero (marshal .bin (rtTy .be) rtVal).2 = .ok (.struct [.uint 513,
    .ptr (some (.str [104, 105])), .map (some [(.uint 9, .seq (some [.uint 300])), (.uint 4, .seq (some []))]), .ptr none,
    .ptr (some (.int (-2))), .uint 2, .seq (some [.struct [.bool true], .struct [.bool false]]), .uint 0, .str [],
    .u128 1 2 none, .bytes (some []), .arr [.float 0x3f800000, .float 0], .int (-7)]) := by
  decide +kernel

/-! ### C30 -/

/-- `enc.Encode(x1); enc.Encode(x2); …` with one encoder. -/
def encodeAll : List (Ty × Val) → EM Unit
  | [] => pure ()
  | x :: xs => do encode x.1 x.2; encodeAll xs

/-- `dec.Decode(&y1); dec.Decode(&y2); …` into fresh variables, with one decoder. -/
def decodeAll : List Ty → DM (List Val)
  | [] => pure []
  | t :: ts => do
    let v ← decode t t.zero
    let vs ← decodeAll ts
    pure (v :: vs)

theorem encodeAll_w {e : Encoding} (he : e.valid = true) (xs : List (Ty × Val)) (h : ∀ x ∈ xs, Supported e x.1 x.2) :
    EW e (encodeAll xs) (xs.flatMap fun x => wire e x.1 .le false x.2) := by
  induction xs with
  | nil => exact EW.pure
  | cons x xs ih =>
    rw [List.flatMap_cons]
    exact (encode_w he x.1 x.2 (h x (by simp)).1).seq (ih fun y hy => h y (by simp [hy]))

theorem decodeAll_r {e : Encoding} (he : e.valid = true) (xs : List (Ty × Val)) (h : ∀ x ∈ xs, Supported e x.1 x.2) :
    ∀ (d : Dec) (tail : Bytes), d.enc = e → d.Ok → d.rest = (xs.flatMap fun x => wire e x.1 .le false x.2) ++ tail →
      ∃ c, decodeAll (xs.map (·.1)) d = (.ok (xs.map fun x => copy e x.1 x.2),
        d.to (xs.flatMap fun x => wire e x.1 .le false x.2).length c) := by
  induction xs with
  | nil => intro d tail _ _ _; exact ⟨d.cur, by simp [decodeAll, Dec.to]⟩
  | cons x xs ih =>
    intro d tail hd ho hr
    have hx := h x (by simp)
    have hr' : d.rest = wire e x.1 .le false x.2 ++ ((xs.flatMap fun x => wire e x.1 .le false x.2) ++ tail) := by
      rw [hr]; simp
    obtain ⟨c, hc⟩ := decode_r he x.1 x.2 hx.1 hx.2 d _ hd ho hr'
    obtain ⟨c', hc'⟩ := ih (fun y hy => h y (by simp [hy])) (d.to (wire e x.1 .le false x.2).length c) tail hd
      (Dec.to_ok (Dec.adv_ok_append ho hr')) (by rw [Dec.to_rest]; exact Dec.adv_rest_append ho hr')
    refine ⟨c', ?_⟩
    simp only [List.map_cons, decodeAll]
    rw [M.bind_ok hc, M.bind_ok hc']
    simp

/-- C30: values written back to back with one encoder are read back one by one with one decoder. -/
theorem C30_sequence {e : Encoding} (he : e.valid = true) (xs : List (Ty × Val)) (h : ∀ x ∈ xs, Supported e x.1 x.2) :
    ∃ b ws, (encodeAll xs (Enc.new e)).1 = .ok () ∧ (encodeAll xs (Enc.new e)).2.out = b ∧
      (decodeAll (xs.map (·.1)) (Dec.new b e)).1 = .ok ws ∧
      (decodeAll (xs.map (·.1)) (Dec.new b e)).2.remaining = 0 ∧
      All2 (fun x w => Same e x.1 x.2 w) xs ws := by
  obtain ⟨cs, c, h1, h2⟩ := encodeAll_w he xs h (Enc.new e) rfl (fun _ _ => rfl)
  obtain ⟨c', hc'⟩ := decodeAll_r he xs h (Dec.new _ e) [] rfl (Dec.new_ok (xs.flatMap fun x => wire e x.1 .le false x.2) e)
    (by simp)
  refine ⟨xs.flatMap fun x => wire e x.1 .le false x.2, xs.map fun x => copy e x.1 x.2, ?_, ?_, ?_, ?_, ?_⟩
  · rw [h2]
  · rw [h2, ← h1]; simp [Enc.out, Enc.new, Enc.left, Enc.push]
  · rw [hc']
  · rw [hc']; simp [Dec.remaining, Dec.to, Dec.adv, Dec.new]
  · exact all2_map _ fun x hx => same_copy x.1 none x.2 (h x hx).1 (h x hx).2

/-- C30: no encoding of a supported value is a proper prefix of the encoding of another one of the same type, and equal
encodings come from values that are the same (both are the value read back). -/
theorem C30_unambiguous {e : Encoding} (he : e.valid = true) (t : Ty) (v1 v2 : Val) (h1 : Supported e t v1)
    (h2 : Supported e t v2) (ext : Bytes) (h : (marshal e t v1).2 ++ ext = (marshal e t v2).2) :
    ext = [] ∧ ∃ w, Same e t v1 w ∧ Same e t v2 w := by
  rw [marshal_wire he t v1 h1.1, marshal_wire he t v2 h2.1] at h
  simp only [] at h
  obtain ⟨c1, e1⟩ := decode_r he t v1 h1.1 h1.2 (Dec.new (wire e t .le false v1 ++ ext) e) ext rfl (Dec.new_ok _ _)
    (Dec.new_rest _ _)
  obtain ⟨c2, e2⟩ := decode_r he t v2 h2.1 h2.2 (Dec.new (wire e t .le false v1 ++ ext) e) [] rfl (Dec.new_ok _ _)
    (by rw [Dec.new_rest, h, List.append_nil])
  rw [e1] at e2
  simp only [Prod.mk.injEq, Res.ok.injEq] at e2
  have hlen : (wire e t .le false v1).length = (wire e t .le false v2).length := by
    have := congrArg Dec.pos e2.2
    simp only [Dec.to, Dec.adv] at this
    omega
  constructor
  · have := congrArg List.length h
    rw [List.length_append] at this
    exact List.length_eq_zero_iff.mp (by omega)
  · exact ⟨copy e t v1, same_copy t none v1 h1.1 h1.2, e2.1 ▸ same_copy t none v2 h2.1 h2.2⟩

/-- Two values written one after the other. -/
example : ∀ x ∈ [(rtTy .le, rtVal), (Ty.str, Val.str [7])], Supported .borsh x.1 x.2 := by
  intro x hx
  rcases List.mem_cons.mp hx with rfl | hx
  · exact rt_supported .borsh rfl .le (fun _ => rfl)
  · simp only [List.mem_singleton] at hx
    subst hx
    exact ⟨by simp [Encodable, maxStr, maxLen], by simp [Returns, readMax]⟩

end Verif.Props
