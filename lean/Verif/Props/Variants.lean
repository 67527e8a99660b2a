import Verif.Proofs.Variants
import Verif.Props.RoundTrip
/-! Properties C45 and C46: variant ids and definitions. -/
namespace Verif.Props
open Verif Verif.Spec

/-- C45: `TypeIDFromBytes` keeps the first eight bytes and zero-fills. -/
theorem C45_bytes (b : Bytes) : (typeIDFromBytes b).length = 8 ∧
    ∀ i, i < 8 → (typeIDFromBytes b)[i]? = some (b[i]?.getD 0) := by
  refine ⟨by rw [typeIDFromBytes_eq_pad8, pad8_length], fun i hi => ?_⟩
  rw [typeIDFromBytes_eq_pad8, pad8, List.getElem?_take, if_pos hi, List.getElem?_append]
  by_cases h : i < b.length
  · simp [h]
  · rw [if_neg h, List.getElem?_replicate, if_pos (by omega), List.getElem?_eq_none (by omega)]
    rfl

example : typeIDFromBytes [1, 2, 3] = [1, 2, 3, 0, 0, 0, 0, 0] := by decide
example : typeIDFromBytes [1, 2, 3, 4, 5, 6, 7, 8, 9] = [1, 2, 3, 4, 5, 6, 7, 8] := by decide

/-- C45: `Equal` is equality of the byte strings. -/
theorem C45_equal (id b : Bytes) : typeIDEqual id b = true ↔ id = b := by simp [typeIDEqual]

/-- C45: `Uint8FromTypeID` inverts `TypeIDFromUint8`, which is injective. -/
theorem C45_uint8 (v : Nat) (h : v < 2 ^ 8) :
    uint8FromTypeID (typeIDFromUint8 v) = v ∧ ∀ w, w < 2 ^ 8 → typeIDFromUint8 v = typeIDFromUint8 w → v = w :=
  ⟨uint8_inv h, fun w hw he => by rw [← uint8_inv h, he, uint8_inv hw]⟩

/-- C45: `Uint32FromTypeID` inverts `TypeIDFromUint32` in the same byte order, which is injective. -/
theorem C45_uint32 (o : Order) (v : Nat) (h : v < 2 ^ 32) :
    uint32FromTypeID (typeIDFromUint32 v o) o = .ok v ∧
    ∀ w, w < 2 ^ 32 → typeIDFromUint32 v o = typeIDFromUint32 w o → v = w :=
  ⟨uint32_inv h o, fun w hw he => by
    have := uint32_inv h o
    rw [he, uint32_inv hw] at this
    simpa using this.symm⟩

/-- C45: `TypeIDFromUvarint32` never panics, `Uvarint32FromTypeID` inverts it, it is injective. -/
theorem C45_uvarint32 (v : Nat) (h : v < 2 ^ 32) :
    (∃ id, typeIDFromUvarint32 v = .ok id ∧ id.length = 8 ∧ uvarint32FromTypeID id = v) ∧
    ∀ w, w < 2 ^ 32 → typeIDFromUvarint32 v = typeIDFromUvarint32 w → v = w := by
  refine ⟨⟨_, typeIDFromUvarint32_eq h, by rw [typeIDFromBytes_eq_pad8, pad8_length], uvarint32_inv h⟩, fun w hw he => ?_⟩
  rw [typeIDFromUvarint32_eq h, typeIDFromUvarint32_eq hw, Res.ok.injEq] at he
  rw [← uvarint32_inv h, he, uvarint32_inv hw]

example : typeIDFromUvarint32 300 = .ok [0xac, 2, 0, 0, 0, 0, 0, 0] := by decide
example : typeIDFromUint32 300 .be = [0, 0, 1, 44, 0, 0, 0, 0] := by decide

/-- C45: the methods `Uint8`, `Uint32` (little endian), `Uvarint32` and `Bytes` invert the matching constructors. -/
theorem C45_methods (v : Nat) (h : v < 2 ^ 32) :
    (v < 2 ^ 8 → TypeID.uint8 (typeIDFromUint8 v) = v) ∧ TypeID.uint32 (typeIDFromUint32 v .le) = .ok v ∧
    (∃ id, typeIDFromUvarint32 v = .ok id ∧ id.uvarint32 = v) ∧
    ∀ b : Bytes, b.length = 8 → TypeID.bytes (typeIDFromBytes b) = b ∧ TypeID.bytes (typeIDFromSighash b) = b ∧
      typeIDEqual (typeIDFromSighash b) b = true :=
  ⟨fun h8 => uint8_inv h8, uint32_inv h .le, ⟨_, typeIDFromUvarint32_eq h, uvarint32_inv h⟩, fun b hb =>
    ⟨typeIDFromBytes_full hb, typeIDFromBytes_full hb, (C45_equal _ _).2 (typeIDFromBytes_full hb)⟩⟩

/-- C46: with enough ids and distinct names, `TypeID(name)` is the zero-filled wire id of the type of that name, ids of
different types differ, and unknown names panic. Missing: more than 256 types with the Uint8 encoding (see below). -/
theorem C46_typeID_partial (H : Bytes → Bytes) (enc : TypeIDEncoding) (types : List VariantType)
    (h : IDsSuffice H enc types) (hn : (types.map (·.name)).Nodup) :
    ∃ d, newVariantDef H enc types = .ok d ∧
      (∀ j t, types[j]? = some t → ∃ w, IDWire H enc j t.name w ∧ d.typeID t.name = .ok (pad8 w)) ∧
      (∀ (j k : Nat) (t u : VariantType), types[j]? = some t → types[k]? = some u → j ≠ k → d.typeID t.name ≠ d.typeID u.name) ∧
      (∀ n, n ∉ types.map (·.name) → d.typeID n = .panic) := by
  obtain ⟨d, hd, -, -, -, -, hid, hout⟩ := newVariantDef_spec h
  have hT : ∀ j t, types[j]? = some t → d.typeID t.name = .ok (vid H enc j t.name) := fun j t hj => by
    unfold VariantDef.typeID; rw [hid hn j t hj]
  refine ⟨d, hd, fun j t hj => ?_, fun j k t u hj hk hne he => ?_, fun n hn' => ?_⟩
  · rw [hT j t hj]
    have hf := fits_of_suffice h hj
    cases enc <;> simp only [Fits, vid, IDWire] at *
    · obtain ⟨hg, hl, h10⟩ := uvarintBytes_groups j (by omega)
      exact ⟨_, ⟨hg, h10, hl⟩, by rw [typeIDFromBytes_eq_pad8]⟩
    · exact ⟨putUint .le 4 j, ⟨by simp, by rw [leValue_getLE]; exact getLE_putLE 4 j (by omega)⟩,
        by rw [typeIDFromUint32, typeIDFromBytes_eq_pad8]⟩
    · exact ⟨[UInt8.ofNat j], ⟨rfl, by simp [leValue, UInt8.toNat_ofNat']; omega⟩,
        by rw [typeIDFromUint8, typeIDFromBytes_eq_pad8]⟩
    · exact ⟨_, rfl, by rw [typeIDFromBytes_eq_pad8]⟩
    · exact ⟨[], rfl, by decide⟩
  · rw [hT j t hj, hT k u hk, Res.ok.injEq] at he
    exact hne (vid_inj h hj hk he)
  · unfold VariantDef.typeID; rw [hout n hn']

/-- C46: `UnmarshalBinaryVariant` on the wire form of the id of the `j`-th type reads the id and then decodes a fresh
variable of exactly that type from the bytes after it, whatever they are; `Obtain` then gives the type's id and name. -/
theorem C46_select_partial (H : Bytes → Bytes) (enc : TypeIDEncoding) (types : List VariantType)
    (h : IDsSuffice H enc types) (d : VariantDef) (hd : newVariantDef H enc types = .ok d)
    (j : Nat) (t : VariantType) (hj : types[j]? = some t) (w : Bytes) (hw : IDWire H enc j t.name w) :
    ∃ id, (∀ impl, BaseVariant.obtain ⟨id, impl⟩ d = (id, t.name, impl)) ∧
      ((types.map (·.name)).Nodup → d.typeID t.name = .ok id) ∧
      ∀ e cur pre post, unmarshalVariant d (decAt e cur pre (w ++ post)) =
        match variantBody t.type (decAt e cur (pre ++ w) post) with
        | (.ok impl, d') => (.ok ⟨id, some impl⟩, d')
        | (.err x, d') => (.err x, d')
        | (.panic, d') => (.panic, d') := by
  obtain ⟨d0, hd0, henc, hin, -, -, hid, -⟩ := newVariantDef_spec h
  rw [hd, Res.ok.injEq] at hd0
  subst hd0
  refine ⟨vid H enc j t.name, fun impl => ?_, fun hn => ?_, fun e cur pre post => ?_⟩
  · unfold BaseVariant.obtain; rw [(hin j t hj).2]; rfl
  · unfold VariantDef.typeID; rw [hid hn j t hj]
  · have hr := (idWire_reads e (fits_of_suffice h hj) (fun ha => by subst ha; exact h.1) hw).consumes cur pre post
    unfold unmarshalVariant
    rw [henc, M.bind_ok hr, (hin j t hj).1]
    cases ht : t.type with
    | none => rfl
    | some u =>
      cases u with
      | ptr u =>
        simp only [variantBody]
        rw [M.bind_apply]
        rcases decode u u.zero (decAt e cur (pre ++ w) post) with ⟨r, d'⟩
        cases r <;> rfl
      | _ =>
        simp only [variantBody]
        rw [M.bind_apply]
        generalize decode _ _ (decAt e cur (pre ++ w) post) = x
        rcases x with ⟨r, d'⟩
        cases r <;> rfl

/-- C46: `Assign` keeps what it is given, whatever the variant held before; `Obtain` then returns the id, the name of the type
with that id, and the value. -/
theorem C46_assign_partial (H : Bytes → Bytes) (enc : TypeIDEncoding) (types : List VariantType)
    (h : IDsSuffice H enc types) (hn : (types.map (·.name)).Nodup) (d : VariantDef)
    (hd : newVariantDef H enc types = .ok d) (j : Nat) (t : VariantType) (hj : types[j]? = some t) (id : TypeID)
    (hid : d.typeID t.name = .ok id) (old : BaseVariant) (impl : Option (Ty × Val)) :
    (old.assign id impl).obtain d = (id, t.name, impl) := by
  obtain ⟨d0, hd0, hw, -⟩ := C46_typeID_partial H enc types h hn
  rw [hd, Res.ok.injEq] at hd0
  subst hd0
  obtain ⟨w, hw, -⟩ := hw j t hj
  obtain ⟨id', h1, h2, -⟩ := C46_select_partial H enc types h d hd j t hj w hw
  have := h2 hn
  rw [hid, Res.ok.injEq] at this
  subst this
  exact h1 impl

/-- C46: with an id that belongs to no type of the definition `Obtain` returns the id, the empty name and the value. -/
theorem C46_unnamed_partial (H : Bytes → Bytes) (enc : TypeIDEncoding) (types : List VariantType)
    (h : IDsSuffice H enc types) (hn : (types.map (·.name)).Nodup) (d : VariantDef)
    (hd : newVariantDef H enc types = .ok d) (id : TypeID) (hid : ∀ t ∈ types, d.typeID t.name ≠ .ok id)
    (old : BaseVariant) (impl : Option (Ty × Val)) :
    (old.assign id impl).obtain d = (id, [], impl) := by
  obtain ⟨d0, hd0, -, -, -, hname, hids, -⟩ := newVariantDef_spec h
  rw [hd, Res.ok.injEq] at hd0
  subst hd0
  have : d.nameOf id = none := hname id fun j t hj he => by
    refine hid t (List.mem_of_getElem? hj) ?_
    unfold VariantDef.typeID
    rw [hids hn j t hj, he]
  unfold BaseVariant.assign BaseVariant.obtain
  rw [this]
  rfl

/-- The wire form of an unknown id is read as an id that no type has. -/
theorem unknown_read (H : Bytes → Bytes) (enc : TypeIDEncoding) (types : List VariantType) (h : IDsSuffice H enc types)
    (w : Bytes) (hw : IDUnknown H enc types w) (e : Encoding) :
    ∃ id, (∀ j t, types[j]? = some t → vid H enc j t.name ≠ id) ∧ Consumes e (readVariantID enc) w id := by
  have key : ∀ (i : Nat) (H' : Bytes → Bytes), Fits enc i → (enc = .anchor → ∀ x, (H' x).length = 32) →
      IDWire H' enc i [] w → (∀ j t, types[j]? = some t → vid H enc j t.name ≠ vid H' enc i []) →
      ∃ id, (∀ j t, types[j]? = some t → vid H enc j t.name ≠ id) ∧ Consumes e (readVariantID enc) w id :=
    fun i H' hf hH hw hne => ⟨_, hne, (idWire_reads e hf hH hw).consumes⟩
  cases enc <;> simp only [IDUnknown] at hw
  · refine key (leb w) H hw.2.2.1 (by simp) ⟨hw.1, hw.2.1, rfl⟩ fun j t hj he => ?_
    have hf := fits_of_suffice h hj
    obtain ⟨hl, -⟩ := List.getElem?_eq_some_iff.1 hj
    simp only [vid, Fits] at he hf
    have := uvarint32_inv hf
    rw [he, uvarint32_inv hw.2.2.1] at this
    omega
  · have hlt : leValue w < 2 ^ 32 := by rw [leValue_getLE]; have := getLE_lt w; rw [hw.1] at this; exact this
    refine key (leValue w) H hlt (by simp) ⟨hw.1, rfl⟩ fun j t hj he => ?_
    have hf := fits_of_suffice h hj
    obtain ⟨hl, -⟩ := List.getElem?_eq_some_iff.1 hj
    simp only [vid, Fits] at he hf
    have := uint32_inv hf .le
    rw [he, uint32_inv hlt, Res.ok.injEq] at this
    omega
  · have hlt : leValue w < 2 ^ 8 := by rw [leValue_getLE]; have := getLE_lt w; rw [hw.1] at this; exact this
    refine key (leValue w) H hlt (by simp) ⟨hw.1, rfl⟩ fun j t hj he => ?_
    have hf := fits_of_suffice h hj
    obtain ⟨hl, -⟩ := List.getElem?_eq_some_iff.1 hj
    simp only [vid, Fits] at he hf
    have := uint8_inv hf
    rw [he, uint8_inv hlt] at this
    omega
  · refine key 0 (fun _ => w ++ List.replicate 24 0) trivial (fun _ x => by simp [hw.1])
      (by simp [IDWire, List.take_append, hw.1, List.take_of_length_le]) fun j t hj he => ?_
    simp only [vid] at he
    rw [typeIDFromBytes_full (by simp [h.1]), typeIDFromBytes_full (by simp [hw.1])] at he
    refine hw.2 t (List.mem_of_getElem? hj) (he.trans ?_)
    simp [List.take_append, hw.1, List.take_of_length_le]

/-- C46: ids of no type in the definition are an error, reported after the id has been consumed. Missing: varints of
2^32 and more, which are truncated (see below). -/
theorem C46_unknown_partial (H : Bytes → Bytes) (enc : TypeIDEncoding) (types : List VariantType)
    (h : IDsSuffice H enc types) (d : VariantDef) (hd : newVariantDef H enc types = .ok d)
    (w : Bytes) (hw : IDUnknown H enc types w) (e : Encoding) (cur : Option Order) (pre post : Bytes) :
    unmarshalVariant d (decAt e cur pre (w ++ post)) = (.err .unknownVariant, decAt e cur (pre ++ w) post) := by
  obtain ⟨d0, hd0, henc, -, hout, -, -, -⟩ := newVariantDef_spec h
  rw [hd, Res.ok.injEq] at hd0
  subst hd0
  obtain ⟨id, hne, hr⟩ := unknown_read H enc types h w hw e
  unfold unmarshalVariant
  rw [henc, M.bind_ok (hr cur pre post), hout _ hne]
  rfl

/-- C46 with a payload: id followed by what the encoder made of a value of the `j`-th type comes back as that value. -/
theorem C46_roundtrip_partial (H : Bytes → Bytes) (enc : TypeIDEncoding) (types : List VariantType)
    (h : IDsSuffice H enc types) (d : VariantDef) (hd : newVariantDef H enc types = .ok d)
    (j : Nat) (name : Bytes) (u : Ty) (hu : ∀ u', u ≠ .ptr u') (hj : types[j]? = some ⟨name, some u⟩)
    (w : Bytes) (hw : IDWire H enc j name w) (e : Encoding) (he : e.valid = true) (v : Val) (hv : Supported e u v) :
    ∃ b id v' d', marshal e u v = (.ok (), b) ∧
      unmarshalVariant d (Dec.new (w ++ b) e) = (.ok ⟨id, some (u, v')⟩, d') ∧ Same e u v v' ∧
      BaseVariant.obtain ⟨id, some (u, v')⟩ d = (id, name, some (u, v')) := by
  obtain ⟨id, hob, -, hsel⟩ := C46_select_partial H enc types h d hd j _ hj w hw
  obtain ⟨c, hc⟩ := decode_r he u v hv.1 hv.2 (decAt e none w (wire e u .le false v)) [] rfl (decAt_ok _ _ _ _)
    (by simp)
  have hs := hsel e none [] (wire e u .le false v)
  rw [List.nil_append] at hs
  have hb : variantBody (some u) (decAt e none w (wire e u .le false v)) =
      (.ok (u, copy e u v), (decAt e none w (wire e u .le false v)).to (wire e u .le false v).length c) := by
    cases u with
    | ptr u => exact absurd rfl (hu u)
    | _ => simp only [variantBody]; rw [hc]
  rw [hb] at hs
  exact ⟨_, id, _, _, marshal_wire he u v hv.1, hs, same_copy u none v hv.1 hv.2, hob _⟩

/-- Two variants for the examples. -/
def vts : List VariantType := [⟨[97], some .bool⟩, ⟨[98], some (.uint .w16 false)⟩]

example : IDsSuffice (fun _ => []) .uint8 vts := by unfold IDsSuffice; decide
example : IDWire (fun _ => []) .uvarint32 1 [98] [0x81, 0] := by
  refine ⟨⟨[0x81], 0, rfl, by decide, by decide⟩, by decide, by decide⟩
example : IDUnknown (fun _ => []) .uint32 vts [7, 0, 0, 0] := by unfold IDUnknown; decide
example : IDsSuffice (fun x => (x.reverse ++ List.replicate 32 0).take 32) .anchor vts :=
  ⟨fun x => by simp, by decide⟩
/-- Does the construction succeed with a definition that passes the test? -/
def defSatisfies (r : Res VariantDef) (p : VariantDef → Bool) : Bool :=
  match r with
  | .ok d => p d
  | _ => false

theorem defSatisfies_iff (r : Res VariantDef) (p : VariantDef → Bool) :
    defSatisfies r p = true ↔ ∃ d, r = .ok d ∧ p d = true := by
  unfold defSatisfies
  cases r <;> simp

/-- Does `UnmarshalBinaryVariant` on these bytes return this id and this implementation value? -/
def selects (d : VariantDef) (e : Encoding) (b : Bytes) (id : Bytes) (v : Val) : Bool :=
  match (unmarshalVariant d (Dec.new b e)).1 with
  | .ok ⟨id', some (_, v')⟩ => id' == id && decide (v' = v)
  | _ => false

example : defSatisfies (newVariantDef (fun _ => []) .uint8 vts)
    (fun d => selects d .bin [1, 5, 2] [1, 0, 0, 0, 0, 0, 0, 0] (.uint 517)) = true := by decide +kernel

example : defSatisfies (newVariantDef (fun _ => []) .uint8 vts) (fun d => decide
    ((∀ t ∈ vts, d.typeID t.name ≠ .ok [9, 0, 0, 0, 0, 0, 0, 0]) ∧
      (BaseVariant.obtain ⟨[9, 0, 0, 0, 0, 0, 0, 0], none⟩ d).2.1 = [])) = true := by decide +kernel

/-- 257 variants with distinct two-byte names. -/
def manyVariants : List VariantType :=
  (List.range 257).map fun n => ⟨[UInt8.ofNat (n / 256), UInt8.ofNat n], some .bool⟩

/-- C46 is false of the code: with the Uint8 encoding (variant.go:196, `uint8(i)` wraps) the first and the 257th of 257
types with distinct names get the same id; and the uvarint32 wire id 2^32+1 selects type 1 of two (decoder.go:200
truncates). -/
theorem C46_violated :
    (manyVariants.map (·.name)).Nodup ∧
    (∃ d, newVariantDef (fun _ => []) .uint8 manyVariants = .ok d ∧ d.typeID [0, 0] = d.typeID [1, 0] ∧
      d.typeID [0, 0] = .ok [0, 0, 0, 0, 0, 0, 0, 0]) ∧
    (∃ d, newVariantDef (fun _ => []) .uvarint32 vts = .ok d ∧ leb [0x81, 0x80, 0x80, 0x80, 0x10] = 2 ^ 32 + 1 ∧
      selects d .bin [0x81, 0x80, 0x80, 0x80, 0x10, 5, 2] [1, 0, 0, 0, 0, 0, 0, 0] (.uint 517) = true) := by
  refine ⟨by decide +kernel, ?_, ?_⟩
  · obtain ⟨d, hd, hp⟩ := (defSatisfies_iff (newVariantDef (fun _ => []) .uint8 manyVariants) (fun d =>
      decide (d.typeID [0, 0] = d.typeID [1, 0] ∧ d.typeID [0, 0] = .ok [0, 0, 0, 0, 0, 0, 0, 0]))).1 (by decide +kernel)
    exact ⟨d, hd, of_decide_eq_true hp⟩
  · obtain ⟨d, hd, hp⟩ := (defSatisfies_iff (newVariantDef (fun _ => []) .uvarint32 vts) (fun d =>
      selects d .bin [0x81, 0x80, 0x80, 0x80, 0x10, 5, 2] [1, 0, 0, 0, 0, 0, 0, 0] (.uint 517))).1 (by decide +kernel)
    exact ⟨d, hd, by decide, hp⟩

end Verif.Props
