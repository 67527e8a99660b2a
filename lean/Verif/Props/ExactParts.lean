import Verif.Props.Enums
import Verif.Props.Libs
import Verif.Props.Variants
import Verif.Props.U128
import Verif.Props.Json
import Verif.Props.Memory
import Verif.Proofs.Append
/-! C42, C43, C44, C46, C48, C54 and C57 are false of the code.  Here is what the code does instead, for all types and values in
the region where they fail. -/
set_option linter.unusedSimpArgs false
namespace Verif.Props
open Verif Verif.Spec

/-! ### C42: payloads that are not written -/

/-- Slices, arrays and maps, or pointers to them. -/
def Unwritten : Ty → Prop
  | .slice _ | .array _ _ | .map _ _ => True
  | .ptr (.slice _) | .ptr (.array _ _) | .ptr (.map _ _) => True
  | _ => False

theorem encNth_types (e : Encoding) : (fs : Fields) → (n : Nat) → (vs : List Val) → (t : Ty) → (v : Val) →
    (types fs)[n]? = some t → vs[n]? = some v → encNth e fs n vs = encPayload e t v
  | .nil, _, _, _, _, h, _ => by simp [types] at h
  | .cons _ u fs, 0, [], _, _, _, h => by simp at h
  | .cons _ u fs, 0, x :: vs, t, v, h, h' => by
    simp only [types, List.getElem?_cons_zero, Option.some.injEq] at h h'
    subst h h'
    simp only [encNth]
  | .cons _ u fs, n + 1, [], _, _, _, h => by simp at h
  | .cons _ u fs, n + 1, x :: vs, t, v, h, h' => by
    simp only [types, List.getElem?_cons_succ] at h h'
    simp only [encNth]
    exact encNth_types e fs n vs t v h h'

theorem types_length : (fs : Fields) → (types fs).length = fs.length
  | .nil => rfl
  | .cons _ _ fs => by simp only [types, Fields.length, List.length_cons, types_length fs]

/-- C42, exactly, for the variants that are slices, arrays, maps or pointers to these: only the tag is written, whatever they
hold, and nothing is reported. -/
theorem C42_unwritten (m : FieldMeta) (hm : m.tag.isEnum = true) (fs : Fields) (n : Nat) (t : Ty) (hu : Unwritten t) (v : Val)
    (vs : List Val) (ht : (types fs)[n]? = some t) (hv : vs[n]? = some v) (hp : ∀ u, t = .ptr u → ∃ p, v = .ptr p) :
    marshal .borsh (.struct (.cons m .borshEnum fs)) (.struct (.uint n :: vs)) = (.ok (), [UInt8.ofNat n]) := by
  have hpay : encPayload .borsh t v = pure () := by
    cases t with
    | ptr u =>
      obtain ⟨p, rfl⟩ := hp u rfl
      cases p with
      | none => simp only [encPayload]
      | some x =>
        cases u <;> simp only [Unwritten] at hu <;> rfl
    | slice u => simp only [encPayload]; rfl
    | array k u => simp only [encPayload]; rfl
    | map k u => simp only [encPayload]; rfl
    | _ => exact hu.elim
  have hl : n + 1 < (Fields.cons m .borshEnum fs).length := by
    have := (List.getElem?_eq_some_iff.1 ht).1
    rw [types_length] at this
    simp only [Fields.length]; omega
  have hnth : encNth .borsh (.cons m .borshEnum fs) (n + 1) (.uint n :: vs) = pure () := by
    simp only [encNth]
    rw [encNth_types .borsh fs n vs t v ht hv, hpay]
  unfold marshal encode
  rw [M.bind_apply, M.get_apply]
  simp only [Enc.new, encCore, encStruct, Fields.isEnum, hm, and_self, if_true]
  rw [if_neg (by omega), hnth]
  rfl

/-- Two variants, the second a pointer to a map. -/
example : marshal .borsh (.struct (.cons { name := [69], tag := { isEnum := true } } .borshEnum
      (.cons { name := [65] } .bool (.cons { name := [66] } (.ptr (.map .bool .bool)) .nil))))
    (.struct [.uint 1, .bool true, .ptr (some (.map (some [(.bool true, .bool false)])))]) = (.ok (), [1]) :=
  C42_unwritten { name := [69], tag := { isEnum := true } } rfl _ 1 (.ptr (.map .bool .bool)) trivial _ _ rfl rfl
    (fun _ _ => ⟨_, rfl⟩)

/-! ### C43 and C44: the Borsh decoder ignores the tags of library fields -/

theorem decFields_tail {e : Encoding} {gs hs : Fields}
    (h : ∀ sm seen vs, decFields e gs sm seen vs = decFields e hs sm seen vs) : (fs : Fields) → (sm : List (Bytes × Int)) →
    (seen : Bool) → (vs : List Val) → decFields e (fs.append gs) sm seen vs = decFields e (fs.append hs) sm seen vs
  | .nil, sm, seen, vs => h sm seen vs
  | .cons m t fs, sm, seen, [] => by simp only [Fields.append, decFields]
  | .cons m t fs, sm, seen, v :: vs => by
    have hrec := fun sm seen => decFields_tail h fs sm seen vs
    simp only [Fields.append, decFields, hrec]

theorem decNth_tail {e : Encoding} {gs hs : Fields} (h : ∀ i vs, decNth e gs i vs = decNth e hs i vs) : (fs : Fields) → (i : Nat) →
    (vs : List Val) → decNth e (fs.append gs) i vs = decNth e (fs.append hs) i vs
  | .nil, i, vs => h i vs
  | .cons m t fs, 0, [] => by simp only [Fields.append, decNth]
  | .cons m t fs, 0, v :: vs => by simp only [Fields.append, decNth]
  | .cons m t fs, i + 1, [] => by simp only [Fields.append, decNth]
  | .cons m t fs, i + 1, v :: vs => by
    have hrec := decNth_tail h fs i vs
    simp only [Fields.append, decNth, hrec]

theorem append_length : (fs gs hs : Fields) → gs.length = hs.length → (fs.append gs).length = (fs.append hs).length
  | .nil, _, _, h => h
  | .cons _ _ fs, gs, hs, h => by simp only [Fields.append, Fields.length, append_length fs gs hs h]

theorem append_zeros : (fs gs hs : Fields) → gs.zeros = hs.zeros → (fs.append gs).zeros = (fs.append hs).zeros
  | .nil, _, _, h => h
  | .cons _ _ fs, gs, hs, h => by simp only [Fields.append, Fields.zeros, append_zeros fs gs hs h]

/-- Whether the two are decoded at the same moments: both skipped or not, exported or not, extensions or not. -/
def SameTurn (m m' : FieldMeta) : Prop :=
  m.tag.skip = m'.tag.skip ∧ m.exported = m'.exported ∧ m.tag.binExt = m'.tag.binExt

/-- C43 and C44, exactly, for decoding Borsh: the tags `optional`, `coption`, byte order and `sizeof`, and the name, of a field
whose type is a library type or a pointer to one make no difference: such a struct is decoded like one without them.  So no flag
is read, and a counter is not recorded. -/
theorem C43_ignores_tags (fs gs : Fields) (m m' : FieldMeta) (hm : SameTurn m m') (t : Ty) (ht : t.directLib ≠ none)
    (old : Val) (b : Bytes) :
    unmarshal .borsh (.struct (fs.append (.cons m t gs))) old b = unmarshal .borsh (.struct (fs.append (.cons m' t gs))) old b := by
  obtain ⟨h1, h2, h3⟩ := hm
  have hx : extensionEnds m = extensionEnds m' := by unfold extensionEnds; rw [h3]
  have hf : ∀ sm seen vs, decFields .borsh (.cons m t gs) sm seen vs = decFields .borsh (.cons m' t gs) sm seen vs := by
    intro sm seen vs
    cases vs with
    | nil => simp only [decFields]
    | cons v vs =>
      simp only [decFields, h1, h2, h3, hx, if_true]
      cases hd : t.directLib with
      | none => exact absurd hd ht
      | some p => rfl
  have hn : ∀ i vs, decNth .borsh (.cons m t gs) i vs = decNth .borsh (.cons m' t gs) i vs := by
    intro i vs
    cases i <;> cases vs <;> rfl
  have he : (fs.append (.cons m t gs)).isEnum = (fs.append (.cons m' t gs)).isEnum := by
    cases fs with
    | cons a u fs => cases u <;> rfl
    | nil =>
      cases t with
      | borshEnum => exact absurd rfl ht
      | _ => rfl
  have hl := append_length fs (.cons m t gs) (.cons m' t gs) (by simp only [Fields.length])
  have hz := append_zeros fs (.cons m t gs) (.cons m' t gs) (by simp only [Fields.zeros])
  have ho : old.fields (fs.append (.cons m t gs)) = old.fields (fs.append (.cons m' t gs)) := by
    cases old <;> simp only [Val.fields, hz]
  have hc : ∀ o, decCore .borsh (.struct (fs.append (.cons m t gs))) o old =
      decCore .borsh (.struct (fs.append (.cons m' t gs))) o old := by
    intro o
    simp only [decCore, decStruct, he, hl, ho, decFields_tail hf, decNth_tail hn]
  unfold unmarshal decode
  simp only [M.bind_apply, M.get_apply, Dec.new]
  rw [if_neg (by simp), if_neg (by simp)]
  simp only [hc]

/-- C43: an optional field of a library type is read without its flag. -/
theorem C43_flag_ignored (m : FieldMeta) (l : Lib) (fs gs : Fields) (old : Val) (b : Bytes) :
    unmarshal .borsh (.struct (fs.append (.cons { m with tag := { m.tag with option := true } } (.lib l) gs))) old b =
      unmarshal .borsh (.struct (fs.append (.cons { m with tag := { m.tag with option := false } } (.lib l) gs))) old b ∧
    unmarshal .borsh (.struct (fs.append (.cons { m with tag := { m.tag with option := true } } (.ptr (.lib l)) gs))) old b =
      unmarshal .borsh (.struct (fs.append (.cons { m with tag := { m.tag with option := false } } (.ptr (.lib l)) gs))) old b :=
  ⟨C43_ignores_tags fs gs { m with tag := { m.tag with option := true } } { m with tag := { m.tag with option := false } }
    ⟨rfl, rfl, rfl⟩ (.lib l) (by simp [Ty.directLib]) old b,
   C43_ignores_tags fs gs { m with tag := { m.tag with option := true } } { m with tag := { m.tag with option := false } }
    ⟨rfl, rfl, rfl⟩ (.ptr (.lib l)) (by simp [Ty.directLib, Ty.asLib]) old b⟩

/-- C44: the byte order tag of a library field makes no difference to the Borsh decoder. -/
theorem C44_order_ignored (m : FieldMeta) (o o' : Order) (l : Lib) (fs gs : Fields) (old : Val) (b : Bytes) :
    unmarshal .borsh (.struct (fs.append (.cons { m with tag := { m.tag with order := o } } (.lib l) gs))) old b =
      unmarshal .borsh (.struct (fs.append (.cons { m with tag := { m.tag with order := o' } } (.lib l) gs))) old b :=
  C43_ignores_tags fs gs { m with tag := { m.tag with order := o } } { m with tag := { m.tag with order := o' } }
    ⟨rfl, rfl, rfl⟩ (.lib l) (by simp [Ty.directLib]) old b

example : (Ty.lib .uint128).directLib ≠ none ∧ (Ty.ptr (.lib .int64)).directLib ≠ none := by simp [Ty.directLib, Ty.asLib]

/-! ### C46: ids that several types share -/

/-- The number in the id of type number `j`. -/
def idNumber (enc : TypeIDEncoding) (j : Nat) : Nat :=
  match enc with
  | .uint8 => j % 2 ^ 8
  | .uint32 | .uvarint32 => j % 2 ^ 32
  | _ => j

theorem variantID_number (H : Bytes → Bytes) {enc : TypeIDEncoding} (he : enc ≠ .other) (j : Nat) (name : Bytes) :
    variantID H enc j name = .ok (vid H enc (idNumber enc j) name) := by
  cases enc with
  | other => exact absurd rfl he
  | uvarint32 =>
    simp only [variantID, vid, idNumber]
    rw [typeIDFromUvarint32_eq (Nat.mod_lt _ (by decide))]
  | uint32 => rfl
  | uint8 => rfl
  | anchor => rfl
  | noTypeID => rfl

theorem addVariants_last (H : Bytes → Bytes) (ts : List VariantType) : ∀ (d : VariantDef) (i : Nat), d.encoding ≠ .other →
    ∃ d', addVariants H d i ts = .ok d' ∧ d'.encoding = d.encoding ∧
      (∀ j t, ts[j]? = some t →
        (∀ k u, j < k → ts[k]? = some u →
          vid H d.encoding (idNumber d.encoding (i + k)) u.name ≠ vid H d.encoding (idNumber d.encoding (i + j)) t.name) →
        d'.typeOf (vid H d.encoding (idNumber d.encoding (i + j)) t.name) = some t.type ∧
        d'.nameOf (vid H d.encoding (idNumber d.encoding (i + j)) t.name) = some t.name) ∧
      (∀ x, (∀ j t, ts[j]? = some t → vid H d.encoding (idNumber d.encoding (i + j)) t.name ≠ x) →
        d'.typeOf x = d.typeOf x ∧ d'.nameOf x = d.nameOf x) ∧
      (∀ j t, ts[j]? = some t → (∀ k u, j < k → ts[k]? = some u → u.name ≠ t.name) →
        d'.idOf t.name = some (vid H d.encoding (idNumber d.encoding (i + j)) t.name)) ∧
      (∀ n, n ∉ ts.map (·.name) → d'.idOf n = d.idOf n) := by
  induction ts with
  | nil => intro d i _; exact ⟨d, rfl, rfl, by simp, by simp, by simp, by simp⟩
  | cons t ts ih =>
    intro d i hd
    unfold addVariants
    rw [variantID_number H hd i t.name]
    simp only []
    obtain ⟨d', he, henc, hin, hout, hid, hidout⟩ := ih
      { d with typeOf := mapSet d.typeOf (vid H d.encoding (idNumber d.encoding i) t.name) t.type
               nameOf := mapSet d.nameOf (vid H d.encoding (idNumber d.encoding i) t.name) t.name
               idOf := mapSet d.idOf t.name (vid H d.encoding (idNumber d.encoding i) t.name) } (i + 1) hd
    simp only [] at henc hin hout hid hidout
    refine ⟨d', he, henc, ?_, ?_, ?_, ?_⟩
    · intro j u hj hlast
      cases j with
      | zero =>
        simp only [List.getElem?_cons_zero, Option.some.injEq] at hj
        subst hj
        rw [Nat.add_zero] at hlast ⊢
        have := hout _ fun k w hk => by
          have := hlast (k + 1) w (by omega) (by simpa using hk)
          rwa [show i + (k + 1) = i + 1 + k by omega] at this
        rw [this.1, this.2]
        simp [mapSet]
      | succ j =>
        rw [show i + (j + 1) = i + 1 + j by omega] at hlast ⊢
        exact hin j u (by simpa using hj) fun k w hk hw => by
          have := hlast (k + 1) w (by omega) (by simpa using hw)
          rwa [show i + (k + 1) = i + 1 + k by omega] at this
    · intro x hx
      have := hout x fun j u hj => by have := hx (j + 1) u hj; rwa [show i + 1 + j = i + (j + 1) by omega]
      rw [this.1, this.2]
      have := hx 0 t rfl
      rw [Nat.add_zero] at this
      simp [mapSet, Ne.symm this]
    · intro j u hj hlast
      cases j with
      | zero =>
        simp only [List.getElem?_cons_zero, Option.some.injEq] at hj
        subst hj
        have hn : t.name ∉ ts.map (·.name) := by
          intro hm
          obtain ⟨w, hw, he⟩ := List.mem_map.mp hm
          obtain ⟨k, hk⟩ := List.getElem?_of_mem hw
          exact hlast (k + 1) w (by omega) (by simpa using hk) he
        rw [hidout _ hn, Nat.add_zero]
        simp [mapSet]
      | succ j =>
        rw [show i + (j + 1) = i + 1 + j by omega]
        exact hid j u (by simpa using hj) fun k w hk hw => hlast (k + 1) w (by omega) (by simpa using hw)
    · intro n hn
      rw [List.map_cons, List.mem_cons, not_or] at hn
      rw [hidout n hn.2]
      simp [mapSet, hn.1]

theorem newVariantDef_last (H : Bytes → Bytes) {enc : TypeIDEncoding} (he : enc ≠ .other) (hn : enc ≠ .noTypeID)
    (types : List VariantType) :
    newVariantDef H enc types =
      addVariants H { encoding := enc, typeOf := fun _ => none, nameOf := fun _ => none, idOf := fun _ => none } 0 types := by
  unfold newVariantDef
  cases enc <;> first | rfl | contradiction

theorem addVariants_ok (H : Bytes → Bytes) (ts : List VariantType) : ∀ (d : VariantDef) (i : Nat), d.encoding ≠ .other →
    ∃ d', addVariants H d i ts = .ok d' := by
  induction ts with
  | nil => intro d i _; exact ⟨d, rfl⟩
  | cons t ts ih =>
    intro d i he
    have hid : ∃ id, variantID H d.encoding i t.name = .ok id := by
      unfold variantID
      cases hd : d.encoding <;> first
        | exact ⟨_, rfl⟩
        | exact ⟨_, typeIDFromUvarint32_eq (Nat.mod_lt _ (by decide))⟩
        | exact absurd hd he
    obtain ⟨id, hid⟩ := hid
    simp only [addVariants, hid]
    exact ih _ _ he

/-- C46, exactly: `NewVariantDefinition` panics for unknown encodings and, without type ids, unless there is exactly one type; it
returns a definition in every other case. -/
theorem C46_refused (H : Bytes → Bytes) (enc : TypeIDEncoding) (types : List VariantType) :
    (newVariantDef H enc types = .panic ↔ enc = .other ∨ (enc = .noTypeID ∧ types.length ≠ 1)) ∧
    (newVariantDef H enc types ≠ .panic → ∃ d, newVariantDef H enc types = .ok d) := by
  have hok : ∀ e', e' ≠ .other → ∃ d, addVariants H
      { encoding := e', typeOf := fun _ => none, nameOf := fun _ => none, idOf := fun _ => none } 0 types = .ok d :=
    fun e' he => addVariants_ok H types _ 0 he
  unfold newVariantDef
  cases enc with
  | other => simp
  | noTypeID =>
    obtain ⟨d, hd⟩ := hok .noTypeID (by simp)
    by_cases h : types.length = 1
    · simp [h, hd]
    · simp [h]
  | uvarint32 => obtain ⟨d, hd⟩ := hok .uvarint32 (by simp); simp [hd]
  | uint32 => obtain ⟨d, hd⟩ := hok .uint32 (by simp); simp [hd]
  | uint8 => obtain ⟨d, hd⟩ := hok .uint8 (by simp); simp [hd]
  | anchor => obtain ⟨d, hd⟩ := hok .anchor (by simp); simp [hd]

/-- C46, exactly, for any number of types: the id of the `j`-th type is its number modulo 256 (Uint8) or 2^32; a wire id
selects the last of the types that share it; and a uvarint32 wire id is first reduced modulo 2^32.  `TypeID(name)` is the id
of the last type of that name. -/
theorem C46_shared (H : Bytes → Bytes) (enc : TypeIDEncoding) (he : enc = .uint8 ∨ enc = .uint32 ∨ enc = .uvarint32)
    (types : List VariantType) :
    ∃ d, newVariantDef H enc types = .ok d ∧
      (∀ j t w, types[j]? = some t → (∀ k u, j < k → types[k]? = some u → idNumber enc k ≠ idNumber enc j) →
        IDWire H enc (idNumber enc j) t.name w →
        ∃ id, (∀ impl, BaseVariant.obtain ⟨id, impl⟩ d = (id, t.name, impl)) ∧
          ∀ e cur pre post, unmarshalVariant d (decAt e cur pre (w ++ post)) =
            match variantBody t.type (decAt e cur (pre ++ w) post) with
            | (.ok impl, d') => (.ok ⟨id, some impl⟩, d')
            | (.err x, d') => (.err x, d')
            | (.panic, d') => (.panic, d')) ∧
      (∀ j t, types[j]? = some t → (∀ k u, j < k → types[k]? = some u → u.name ≠ t.name) →
        ∃ w, IDWire H enc (idNumber enc j) t.name w ∧ d.typeID t.name = .ok (pad8 w)) ∧
      (∀ n, n ∉ types.map (·.name) → d.typeID n = .panic) := by
  have h1 : enc ≠ .other := by rcases he with rfl | rfl | rfl <;> simp
  have h2 : enc ≠ .noTypeID := by rcases he with rfl | rfl | rfl <;> simp
  have hfit : ∀ j, Fits enc (idNumber enc j) := by
    intro j
    rcases he with rfl | rfl | rfl <;> exact Nat.mod_lt _ (by decide)
  have hinj : ∀ j k n n', vid H enc (idNumber enc k) n' = vid H enc (idNumber enc j) n → idNumber enc k = idNumber enc j := by
    intro j k n n' hv
    have f1 := hfit j
    have f2 := hfit k
    rcases he with rfl | rfl | rfl <;> simp only [Fits, vid] at *
    · rw [← uint8_inv f1, ← hv, uint8_inv f2]
    · have := uint32_inv f1 .le
      rw [← hv, uint32_inv f2] at this
      simpa using this
    · rw [← uvarint32_inv f1, ← hv, uvarint32_inv f2]
  obtain ⟨d, hd, henc, hin, hout, hid, hidout⟩ := addVariants_last H types
    { encoding := enc, typeOf := fun _ => none, nameOf := fun _ => none, idOf := fun _ => none } 0 h1
  simp only [Nat.zero_add] at henc hin hout hid hidout
  refine ⟨d, by rw [newVariantDef_last H h1 h2]; exact hd, fun j t w hj hlast hw => ?_, fun j t hj hlast => ?_, fun n hn => ?_⟩
  · have hin' := hin j t hj fun k u hk hu hv => hlast k u hk hu (hinj j k _ _ hv)
    refine ⟨vid H enc (idNumber enc j) t.name, fun impl => ?_, fun e cur pre post => ?_⟩
    · unfold BaseVariant.obtain; rw [hin'.2]; rfl
    · have hr := (idWire_reads e (hfit j) (fun ha => by rcases he with rfl | rfl | rfl <;> cases ha) hw).consumes cur pre post
      unfold unmarshalVariant
      rw [henc, M.bind_ok hr, hin'.1]
      cases ht : t.type with
      | none => rfl
      | some u =>
        cases u with
        | ptr u =>
          simp only [variantBody]
          rw [M.bind_apply]
          rcases decode u u.zero (decAt e cur (pre ++ w) post) with ⟨r, d'⟩
          cases r <;> rfl
        | _ =>
          simp only [variantBody]
          rw [M.bind_apply]
          generalize decode _ _ (decAt e cur (pre ++ w) post) = x
          rcases x with ⟨r, d'⟩
          cases r <;> rfl
  · have hf := hfit j
    unfold VariantDef.typeID
    rw [hid j t hj hlast]
    rcases he with rfl | rfl | rfl <;> simp only [Fits, vid, IDWire] at *
    · refine ⟨[UInt8.ofNat (idNumber .uint8 j)], ⟨rfl, ?_⟩, ?_⟩
      · simp only [leValue, UInt8.toNat_ofNat']; omega
      · simp only [typeIDFromUint8, typeIDFromBytes_eq_pad8]
    · refine ⟨putUint .le 4 (idNumber .uint32 j), ⟨by simp, ?_⟩, ?_⟩
      · rw [leValue_getLE]; exact getLE_putLE 4 _ (by omega)
      · simp only [typeIDFromUint32, typeIDFromBytes_eq_pad8]
    · obtain ⟨hg, hl, h10⟩ := uvarintBytes_groups (idNumber .uvarint32 j) (by omega)
      exact ⟨_, ⟨hg, h10, hl⟩, by rw [typeIDFromBytes_eq_pad8]⟩
  · unfold VariantDef.typeID; rw [hidout n hn]

/-- C46: a uvarint32 wire id selects what its low 32 bits select: the ids read are the same. -/
theorem C46_low_bits (w w' : Bytes) (hw : Groups w ∧ w.length ≤ 10 ∧ leb w < 2 ^ 64)
    (hw' : Groups w' ∧ w'.length ≤ 10 ∧ leb w' = leb w % 2 ^ 32) (e : Encoding) (cur : Option Order) (pre post : Bytes) :
    (readVariantID .uvarint32 (decAt e cur pre (w ++ post))).1 = (readVariantID .uvarint32 (decAt e cur pre (w' ++ post))).1 := by
  have key : ∀ x : Bytes, Groups x → x.length ≤ 10 → leb x < 2 ^ 64 →
      (readVariantID .uvarint32 (decAt e cur pre (x ++ post))).1 = typeIDFromUvarint32 (leb x % 2 ^ 32) := by
    intro x h1 h2 h3
    have hr := (readUvarint64_reads e x h1 h2 h3).bind_pure (f := fun v => v % 2 ^ 32)
    have hc := hr.consumes cur pre post
    unfold readVariantID
    simp only []
    rw [M.bind_ok (show readUvarint32 _ = _ from hc)]
    rfl
  rw [key w hw.1 hw.2.1 hw.2.2, key w' hw'.1 hw'.2.1 (by omega), hw'.2.2, Nat.mod_mod]

example : idNumber .uint8 0 = idNumber .uint8 256 ∧ idNumber .uvarint32 5 ≠ idNumber .uvarint32 (2 ^ 31) := by decide
example : IDWire (fun _ => []) .uint8 (idNumber .uint8 256) [1, 0] [0] := ⟨rfl, rfl⟩

/-! ### C48: a big-endian receiver -/

theorem unmarshalDecimal_be (j : U128) (n lo hi : Nat) (oo : Bytes) (ho : j.order = .be)
    (hf : bigFillBytes 16 (n : Int) = .ok oo)
    (hv : (readUint128 .be (Dec.new (reverseBytes oo) .bin)).1 = .ok (lo, hi)) :
    j.unmarshalDecimal (decimal n) = .ok { j with lo := lo, hi := hi } := by
  unfold U128.unmarshalDecimal
  simp only [bigSetString_decimal, hf, ho, hv]

/-- C48, exactly, for a receiver whose `Endianness` is big endian: the sixteen bytes of the number come out in reverse order. -/
theorem C48_big_endian (i j : U128) (h : i.Valid) (hj : j.endianness = some .be) :
    ∃ lo hi, j.unmarshalJSON i.marshalJSON = .ok { j with lo := lo, hi := hi } ∧ lo < 2 ^ 64 ∧ hi < 2 ^ 64 ∧
      fixed .be 8 hi = fixed .le 8 i.lo ∧ fixed .be 8 lo = fixed .le 8 i.hi := by
  have ho : j.order = .be := by unfold U128.order; rw [hj]; rfl
  have hx : ∀ n : Nat, ∃ m, m < 2 ^ 64 ∧ putUint .be 8 m = putUint .le 8 n := by
    intro n
    refine ⟨getLE (putLE 8 n).reverse, ?_, ?_⟩
    · have := getLE_lt (putLE 8 n).reverse
      simpa using this
    · have := putLE_getLE (putLE 8 n).reverse
      simp only [List.length_reverse, putLE_length] at this
      simp only [putUint, this, List.reverse_reverse]
  obtain ⟨hi, hhi, hhe⟩ := hx i.lo
  obtain ⟨lo, hlo, hle⟩ := hx i.hi
  have hp : put128 .le i.lo i.hi = put128 .be lo hi := by
    simp only [put128, hhe, hle]
  refine ⟨lo, hi, ?_, hlo, hhi, by rw [fixed_eq, fixed_eq, hhe], by rw [fixed_eq, fixed_eq, hle]⟩
  rw [unmarshalJSON_marshalJSON i j h]
  refine unmarshalDecimal_be j _ _ _ _ ho (fill_value i h) ?_
  rw [reverseBytes_eq, rev_value i h]
  have hr := readUint128_reads .bin .be lo hi hlo hhi (Dec.new (put128 .le i.lo i.hi) .bin) [] rfl (Dec.new_ok _ _)
    (by rw [Dec.new_rest, List.append_nil, hp])
  rw [hr]

example : (⟨0, 0, some .be⟩ : U128).unmarshalJSON (U128.marshalJSON ⟨1, 2, none⟩) = .ok ⟨2 ^ 57, 2 ^ 56, some .be⟩ := by
  decide +kernel

/-! ### C54: a reused buffer -/

/-- The memory after all the changes the caller makes. -/
def endMem (m : Mem) : List RecEv → Mem
  | [] => m
  | .write _ :: evs => endMem m evs
  | .store a i bs :: evs => endMem (m.store a i bs) evs

/-- The slices handed to `Write`, in order. -/
def handed : List RecEv → List Slice
  | [] => []
  | .write b :: evs => b :: handed evs
  | .store _ _ _ :: evs => handed evs

theorem recRun_eq (evs : List RecEv) : ∀ (m : Mem) (ws : List Slice), recRun m ws evs = (endMem m evs, ws ++ handed evs) := by
  induction evs with
  | nil => intro m ws; simp [recRun, endMem, handed]
  | cons ev evs ih =>
    intro m ws
    cases ev with
    | write b => simp only [recRun, ih, endMem, handed, List.append_assoc, List.singleton_append]
    | store a i bs => simp only [recRun, ih, endMem, handed]

/-- C54, exactly: `Bytes()` is the concatenation of what the slices handed to `Write` hold when `Bytes()` is called, whatever
they held when they were written. -/
theorem C54_current (m : Mem) (evs : List RecEv) :
    recBytes (recRun m [] evs).1 (recRun m [] evs).2 = (handed evs).flatMap (endMem m evs).read := by
  rw [recRun_eq]; simp [recBytes]

example : handed [RecEv.write ⟨1, 0, 4, 4⟩, .store 1 0 [50, 60, 70, 80], .write ⟨1, 0, 4, 4⟩] =
    [⟨1, 0, 4, 4⟩, ⟨1, 0, 4, 4⟩] := rfl

/-! ### C57: nil pointers in Bin and CompactU16 -/

/-- The same state up to the option of the field that was encoded last. -/
def SameOut (r r' : Res Unit × Enc) : Prop := r.1 = r'.1 ∧ ∃ c, r'.2 = { r.2 with cur := c }

theorem SameOut.refl (r : Res Unit × Enc) : SameOut r r := ⟨rfl, r.2.cur, rfl⟩

theorem bind_same {α : Type} {w : EM α} {f g : α → EM Unit} (h : ∀ a s, SameOut (f a s) (g a s)) (s : Enc) :
    SameOut ((w >>= f) s) ((w >>= g) s) := by
  rw [M.bind_apply, M.bind_apply]
  rcases w s with ⟨r, s'⟩
  cases r with
  | ok a => exact h a s'
  | err x => exact SameOut.refl _
  | panic => exact SameOut.refl _

theorem SameOut.symm {r r' : Res Unit × Enc} (h : SameOut r r') : SameOut r' r := by
  obtain ⟨h1, c, h2⟩ := h
  exact ⟨h1.symm, r.2.cur, by rw [h2]⟩

theorem SameOut.trans {r r' r'' : Res Unit × Enc} (h : SameOut r r') (h' : SameOut r' r'') : SameOut r r'' := by
  obtain ⟨h1, c, h2⟩ := h
  obtain ⟨h3, c', h4⟩ := h'
  exact ⟨h1.trans h3, c', by rw [h4, h2]⟩

/-- The field loop does not look at the option left by the caller. -/
theorem encFields_cur (e : Encoding) : (fs : Fields) → (sm : List (Bytes × Int)) → (vs : List Val) → (s : Enc) →
    (c : Option Order) → SameOut (encFields e fs sm vs s) (encFields e fs sm vs { s with cur := c })
  | .nil, sm, vs, s, c => by simp only [encFields]; exact ⟨rfl, c, rfl⟩
  | .cons m t fs, sm, [], s, c => by simp only [encFields]; exact ⟨rfl, c, rfl⟩
  | .cons m t fs, sm, v :: vs, s, c => by
    simp only [encFields]
    by_cases hs : m.tag.skip = true
    · rw [if_pos hs]; exact encFields_cur e fs sm vs s c
    rw [if_neg hs]
    have hcur : ∀ sm, SameOut
        ((if m.exported then do
            setCurE m.tag.order
            let more ← encFlags e t (fieldOpt m sm) v
            if more then do
              encCore e t (fieldOpt m sm) v
              encFields e fs sm vs
            else encFields e fs sm vs
          else encFields e fs sm vs) s)
        ((if m.exported then do
            setCurE m.tag.order
            let more ← encFlags e t (fieldOpt m sm) v
            if more then do
              encCore e t (fieldOpt m sm) v
              encFields e fs sm vs
            else encFields e fs sm vs
          else encFields e fs sm vs) { s with cur := c }) := by
      intro sm
      by_cases hx : m.exported = true
      · rw [if_pos hx]
        exact SameOut.refl _
      · rw [if_neg hx]; exact encFields_cur e fs sm vs s c
    unfold recordSize
    by_cases hz : m.tag.sizeOf = []
    · rw [if_pos hz]; exact hcur sm
    · rw [if_neg hz]
      cases hv : sizeofVal t.kind v with
      | ok n => exact hcur _
      | err x => exact ⟨rfl, c, rfl⟩
      | panic => exact ⟨rfl, c, rfl⟩

theorem encFields_tail {e : Encoding} {gs hs : Fields} {ws : List Val}
    (h : ∀ sm s, SameOut (encFields e gs sm ws s) (encFields e hs sm ws s)) : (fs : Fields) → (sm : List (Bytes × Int)) →
    (vs : List Val) → vs.length = fs.length → (s : Enc) →
    SameOut (encFields e (fs.append gs) sm (vs ++ ws) s) (encFields e (fs.append hs) sm (vs ++ ws) s)
  | .nil, sm, [], _, s => h sm s
  | .nil, sm, _ :: _, hl, s => by simp [Fields.length] at hl
  | .cons _ _ _, sm, [], hl, s => by simp [Fields.length] at hl
  | .cons m t fs, sm, v :: vs, hl, s => by
    have hl' : vs.length = fs.length := by simpa [Fields.length] using hl
    have hrec := fun sm s => encFields_tail h fs sm vs hl' s
    simp only [Fields.append, List.cons_append, encFields]
    by_cases hs : m.tag.skip = true
    · rw [if_pos hs, if_pos hs]; exact hrec sm s
    rw [if_neg hs, if_neg hs]
    refine bind_same (fun sm s => ?_) s
    by_cases hx : m.exported = true
    · rw [if_pos hx, if_pos hx]
      refine bind_same (fun _ s => bind_same (fun more s => ?_) s) s
      cases more with
      | true => exact bind_same (fun _ s => hrec sm s) s
      | false => exact hrec sm s
    · rw [if_neg hx, if_neg hx]; exact hrec sm s

/-- C57, exactly, for Bin and CompactU16: a field that is a nil pointer, neither optional nor a counter, writes nothing, as if it
had been skipped, whatever is before and after it: the decoder is given the bytes of the next field in its place. -/
theorem C57_nothing (e : Encoding) (he : e ≠ .borsh) (fs gs : Fields) (us vs : List Val) (hl : us.length = fs.length)
    (m : FieldMeta) (ho : m.tag.option = false) (hz : m.tag.sizeOf = []) (t : Ty) (ht : t.asLib = none) :
    marshal e (.struct (fs.append (.cons m (.ptr t) gs))) (.struct (us ++ .ptr none :: vs)) =
      marshal e (.struct (fs.append (.cons { m with tag := { m.tag with skip := true } } (.ptr t) gs)))
        (.struct (us ++ .ptr none :: vs)) := by
  have hf : ∀ sm s, SameOut (encFields e (.cons m (.ptr t) gs) sm (.ptr none :: vs) s)
      (encFields e (.cons { m with tag := { m.tag with skip := true } } (.ptr t) gs) sm (.ptr none :: vs) s) := by
    intro sm s
    simp only [encFields, if_true]
    by_cases hs : m.tag.skip = true
    · rw [if_pos hs]; exact SameOut.refl _
    rw [if_neg hs]
    unfold recordSize
    rw [if_pos hz, M.bind_ok (M.pure_apply sm s)]
    by_cases hx : m.exported = true
    · rw [if_pos hx]
      have hflags : ∀ s, encFlags e (.ptr t) (fieldOpt m sm) (.ptr none) s = (.ok true, s) := by
        intro s
        unfold encFlags
        rw [if_neg (by simp [fieldOpt, ho]), if_neg (by simp [fieldOpt, ho]), if_neg (fun h => he h.1)]
        rfl
      have hcore : encCore e (.ptr t) (fieldOpt m sm) (.ptr none) = (do setCurE m.tag.order; pure ()) := by
        simp only [encCore, ht, if_neg he]
        rfl
      rw [M.bind_ok (show setCurE m.tag.order s = (.ok (), { s with cur := some m.tag.order }) from rfl), M.bind_ok (hflags _),
        if_pos rfl, hcore]
      exact (encFields_cur e gs sm vs s (some m.tag.order)).symm
    · rw [if_neg hx]; exact SameOut.refl _
  have key := encFields_tail hf fs [] us hl
  unfold marshal encode
  simp only [M.bind_apply, M.get_apply]
  by_cases hoth : (Enc.new e).enc = .other
  · rw [if_pos hoth, if_pos hoth]
  · rw [if_neg hoth, if_neg hoth]
    have hst : ∀ gs' : Fields, encCore (Enc.new e).enc (.struct gs') {} (.struct (us ++ .ptr none :: vs)) =
        encFields e gs' [] (us ++ .ptr none :: vs) := by
      intro gs'
      show encCore e _ _ _ = _
      simp only [encCore, encStruct]
      exact if_neg (fun h => he h.1)
    simp only [hst]
    obtain ⟨h1, c, h2⟩ := key { Enc.new e with cur := some .le }
    have hs : setCurE .le (Enc.new e) = (.ok (), { Enc.new e with cur := some .le }) := rfl
    rw [M.bind_ok hs, M.bind_ok hs, h1, h2]
    rfl

example : marshal .bin (.struct (.cons { name := [65] } (.ptr (.uint .w8 false)) (.cons { name := [66] } .bool .nil)))
    (.struct [.ptr none, .bool true]) = (.ok (), [1]) :=
  (C57_nothing .bin (by simp) .nil (.cons { name := [66] } .bool .nil) [] [.bool true] rfl { name := [65] } rfl rfl
    (.uint .w8 false) rfl).trans rfl

/-! ### C47: the hexadecimal text of 128-bit integers -/

theorem hexDigits_putLE (n v : Nat) : (putLE n v).reverse.flatMap (fun b => [lowerHex (b.toNat / 16), lowerHex (b.toNat % 16)]) =
    (List.range (2 * n)).map fun k => lowerHex (v / 16 ^ (2 * n - 1 - k) % 16) := by
  induction n with
  | zero => rfl
  | succ n ih =>
    rw [putLE_last, List.flatMap_cons, ih, show 2 * (n + 1) = 2 * n + 1 + 1 by omega, List.range_succ_eq_map, List.range_succ_eq_map]
    have h256 : (256 : Nat) ^ n = 16 ^ (2 * n) := by rw [Nat.pow_mul]
    have hb : (UInt8.ofNat (v / 256 ^ n)).toNat = v / 16 ^ (2 * n) % 256 := by rw [UInt8.toNat_ofNat', h256]
    simp only [List.map_cons, List.map_map, hb, List.cons_append, List.nil_append]
    have h1 : v / 16 ^ (2 * n) % 256 / 16 = v / 16 ^ (2 * n + 1 + 1 - 1 - 0) % 16 := by
      rw [show 2 * n + 1 + 1 - 1 - 0 = 2 * n + 1 by omega, Nat.pow_succ, ← Nat.div_div_eq_div_mul]
      omega
    have h2 : v / 16 ^ (2 * n) % 256 % 16 = v / 16 ^ (2 * n + 1 + 1 - 1 - Nat.succ 0) % 16 := by
      rw [show 2 * n + 1 + 1 - 1 - Nat.succ 0 = 2 * n by omega]
      omega
    rw [h1, h2]
    congr 2
    apply List.map_congr_left
    intro k _
    simp only [Function.comp_apply]
    rw [show 2 * n + 1 + 1 - 1 - (k.succ.succ) = 2 * n - 1 - k by omega]

/-- C47: `HexString` is `0x` and the 32 hexadecimal digits of `Hi * 2^64 + Lo`, most significant first, whatever the endianness. -/
theorem C47_hex (i : U128) (h : i.Valid) : i.hexString =
    [48, 120] ++ (List.range 32).map fun k => lowerHex ((i.hi * 2 ^ 64 + i.lo) / 16 ^ (31 - k) % 16) := by
  unfold U128.hexString
  have := (C59_format i.bytes).1
  unfold hexBytesString at this
  rw [this, bytes_eq i h]
  show [48, 120] ++ (putLE 16 (value128 i)).reverse.flatMap _ = _
  rw [hexDigits_putLE 16]
  rfl

example : U128.hexString ⟨0xff, 1, some .be⟩ = "0x000000000000000100000000000000ff".toUTF8.toList := by decide +kernel

end Verif.Props
