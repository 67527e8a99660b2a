import Verif.Proofs.Custom
import Verif.Props.Dynamic
/-!
# C95: types with marshal methods of their own

The claim: wherever a value of a type with `MarshalWithEncoder` and `UnmarshalWithDecoder` occurs, it is written by the one and read by
the other, and what is around it is written and read as always.

That fails in four places (`C95_violated`): a method with pointer receiver is not called for a value that is not behind a pointer; no
method is called for elements of unsigned integer kinds, nor for the payload of a Borsh enum; and decoding an optional field of such a
type panics.  `C95_encode_partial` and `C95_decode_partial` say for every type, method and value what is written and read.
-/
namespace Verif.Props
open Spec

/-! ### the library types are types with methods -/

mutual
theorem exposed_erase : (t : Ty) → (exposed t).erase = t
  | .lib _ => by simp only [exposed, CTy.erase]
  | .ptr t => by simp only [exposed, CTy.erase, exposed_erase t]
  | .slice t => by simp only [exposed, CTy.erase, exposed_erase t]
  | .array _ t => by simp only [exposed, CTy.erase, exposed_erase t]
  | .map _ t => by simp only [exposed, CTy.erase, exposed_erase t]
  | .struct fs => by simp only [exposed, CTy.erase, exposed_erases fs]
  | .bool | .uint _ _ | .int _ _ | .borshEnum | .f32 | .f64 | .str | .iface | .plainInt | .plainUint | .other => by
    simp only [exposed, CTy.erase]
theorem exposed_erases : (fs : Fields) → (exposedFields fs).erase = fs
  | .nil => by simp only [exposedFields, CFields.erase]
  | .cons m t fs => by simp only [exposedFields, CFields.erase, exposed_erase t, exposed_erases fs]
end

theorem exposed_length : (fs : Fields) → (exposedFields fs).length = fs.length
  | .nil => by simp only [exposedFields, CFields.length, Fields.length]
  | .cons m t fs => by simp only [exposedFields, CFields.length, Fields.length, exposed_length fs]

theorem exposed_isEnum (fs : Fields) : (exposedFields fs).isEnum = fs.isEnum := by
  cases fs with
  | nil => simp only [exposedFields, CFields.isEnum, Fields.isEnum]
  | cons m t fs => cases t <;> simp [exposedFields, exposed, CFields.isEnum, Fields.isEnum]

theorem exposed_method (t : Ty) : (exposed t).method = (CTy.plain t).method := by
  cases t <;> simp [exposed, CTy.method]

theorem exposed_reader (t : Ty) : (exposed t).reader = (CTy.plain t).reader := by
  cases t <;> simp [exposed, CTy.reader]

theorem exposed_struct (e : Encoding) (fs : Fields) (vs : List Val) (a : EM Unit) (b : Nat → EM Unit) :
    encStructC e (exposedFields fs) vs a b = encStruct e fs vs a b := by
  unfold encStructC encStruct
  rw [exposed_isEnum, exposed_length]
  rfl

mutual
theorem exposed_enc (e : Encoding) : (t : Ty) → (o : Opt) → (v : Val) → encC e (exposed t) o v = encCore e t o v
  | .lib l, o, v => by
    cases l <;> simp only [exposed, CTy.method, encC, encCore]
  | .ptr t, o, v => by
    cases v <;> simp only [exposed, encC, encCore]
    rename_i p
    have ih := fun o v => exposed_enc e t o v
    rw [exposed_method, exposed_erase]
    cases t
    case lib l =>
      cases l <;> cases p <;> simp [CTy.method, Ty.asLib]
    all_goals
      simp only [CTy.method, Ty.asLib, ih]
      rfl
  | .slice t, o, v => by
    cases v <;> simp only [exposed, encC, encCore, exposed_erase, exposed_enc e t]
    rfl
  | .array n t, o, v => by
    cases v <;> simp only [exposed, encC, encCore, exposed_erase, exposed_enc e t]
    rfl
  | .map k t, o, v => by
    cases v <;> simp only [exposed, encC, encCore, exposed_enc e t]
  | .struct fs, o, v => by
    cases v <;> simp only [exposed, encC, encCore]
    rename_i vs
    rw [exposed_struct, exposed_encFields e fs [] vs, funext fun i => exposed_encNth e fs i vs]
  | .bool, o, v | .uint _ _, o, v | .int _ _, o, v | .borshEnum, o, v | .f32, o, v | .f64, o, v | .str, o, v | .iface, o, v
  | .plainInt, o, v | .plainUint, o, v | .other, o, v => by simp only [exposed, encC]
theorem exposed_encFields (e : Encoding) : (fs : Fields) → (sm : List (Bytes × Int)) → (vs : List Val) →
    encFieldsC e (exposedFields fs) sm vs = encFields e fs sm vs
  | .nil, sm, vs => by simp only [exposedFields, encFieldsC, encFields]
  | .cons m t fs, sm, [] => by simp only [exposedFields, encFieldsC, encFields]
  | .cons m t fs, sm, v :: vs => by
    simp only [exposedFields, encFieldsC, encFields, exposed_erase, exposed_enc e t, exposed_encFields e fs]
theorem exposed_encNth (e : Encoding) : (fs : Fields) → (i : Nat) → (vs : List Val) →
    encNthC e (exposedFields fs) i vs = encNth e fs i vs
  | .nil, i, vs => by simp only [exposedFields, encNthC, encNth]
  | .cons m t fs, 0, [] => by simp only [exposedFields, encNthC, encNth]
  | .cons m t fs, 0, v :: vs => by simp only [exposedFields, encNthC, encNth, exposed_payload e t v]
  | .cons m t fs, i + 1, [] => by simp only [exposedFields, encNthC, encNth]
  | .cons m t fs, i + 1, v :: vs => by simp only [exposedFields, encNthC, encNth, exposed_encNth e fs i vs]
theorem exposed_payload (e : Encoding) : (t : Ty) → (v : Val) → encPayloadC e (exposed t) v = encPayload e t v
  | .lib l, v => by
    cases v <;> simp only [exposed, encPayloadC, encVariantC, encPayload, encVariant]
  | .ptr t, v => by
    cases v <;> simp only [exposed, encPayloadC, encPayload, exposed_variant e t]
    rfl
  | .struct fs, v => by
    cases v <;> simp only [exposed, encPayloadC, encPayload]
    rename_i vs
    rw [exposed_struct, exposed_encFields e fs [] vs, funext fun i => exposed_encNth e fs i vs]
  | .slice t, v => by simp [exposed, encPayloadC, encPayload, encScalar, Ty.kind]
  | .array _ t, v => by simp [exposed, encPayloadC, encPayload, encScalar, Ty.kind]
  | .map _ t, v => by simp [exposed, encPayloadC, encPayload, encScalar, Ty.kind]
  | .bool, v | .uint _ _, v | .int _ _, v | .borshEnum, v | .f32, v | .f64, v | .str, v | .iface, v
  | .plainInt, v | .plainUint, v | .other, v => by simp only [exposed, encPayloadC]
theorem exposed_variant (e : Encoding) : (t : Ty) → (v : Val) → encVariantC e (exposed t) v = encVariant e t v
  | .lib l, v => by
    cases v <;> simp only [exposed, encVariantC, encVariant]
  | .struct fs, v => by
    cases v <;> simp only [exposed, encVariantC, encVariant]
    rename_i vs
    rw [exposed_struct, exposed_encFields e fs [] vs, funext fun i => exposed_encNth e fs i vs]
  | .ptr t, v => by simp [exposed, encVariantC, encVariant, encScalar, Ty.kind]
  | .slice t, v => by simp [exposed, encVariantC, encVariant, encScalar, Ty.kind]
  | .array _ t, v => by simp [exposed, encVariantC, encVariant, encScalar, Ty.kind]
  | .map _ t, v => by simp [exposed, encVariantC, encVariant, encScalar, Ty.kind]
  | .bool, v | .uint _ _, v | .int _ _, v | .borshEnum, v | .f32, v | .f64, v | .str, v | .iface, v
  | .plainInt, v | .plainUint, v | .other, v => by simp only [exposed, encVariantC]
end

theorem exposed_leads : (t : Ty) → (exposed t).leadsToReader = t.baseLib
  | .ptr t => by simp only [exposed, CTy.leadsToReader, Ty.baseLib, exposed_leads t]
  | .lib _ => by simp [exposed, CTy.leadsToReader, Ty.baseLib, CTy.reader]
  | .slice t => by simp [exposed, CTy.leadsToReader, Ty.baseLib, CTy.reader]
  | .array _ t => by simp [exposed, CTy.leadsToReader, Ty.baseLib, CTy.reader]
  | .map _ t => by simp [exposed, CTy.leadsToReader, Ty.baseLib, CTy.reader]
  | .struct fs => by simp [exposed, CTy.leadsToReader, Ty.baseLib, CTy.reader]
  | .bool | .uint _ _ | .int _ _ | .borshEnum | .f32 | .f64 | .str | .iface | .plainInt | .plainUint | .other => by
    simp only [exposed, CTy.leadsToReader]

theorem exposed_isSome (t : Ty) : (exposed t).reader.isSome = t.asLib.isSome := by
  rw [exposed_reader]; cases t <;> simp [CTy.reader, Ty.asLib]

theorem exposed_direct (t : Ty) : (exposed t).direct = t.directLib.map fun p => (unmarshalLib p.1, p.1.zero, p.2) := by
  cases t with
  | lib l => simp [exposed, CTy.direct, Ty.directLib, CTy.reader, CTy.erase, Ty.zero]
  | ptr t =>
    simp only [exposed, CTy.direct, exposed_reader, exposed_erase]
    cases t <;> simp [Ty.directLib, Ty.asLib, CTy.reader, Ty.zero]
  | _ => simp [exposed, CTy.direct, Ty.directLib, CTy.reader]

theorem exposed_field (e : Encoding) (t : Ty) (o : Opt) (old : Val) (core : DM Val) :
    decFieldC e (exposed t) o old core = decField e t o old core := by
  unfold decFieldC decField
  rw [exposed_isSome, exposed_leads, exposed_erase]

theorem exposed_decStruct (e : Encoding) (fs : Fields) (a : DM (List Val)) (b : Nat → DM (List Val)) :
    decStructC e (exposedFields fs) a b = decStruct e fs a b := by
  unfold decStructC decStruct
  rw [exposed_isEnum, exposed_length]

mutual
theorem exposed_dec (e : Encoding) : (t : Ty) → (o : Opt) → (old : Val) → decC e (exposed t) o old = decCore e t o old
  | .lib l, o, old => by simp only [exposed, decC, decCore]
  | .ptr t, o, old => by simp only [exposed, decC, decCore, exposed_erase, exposed_dec e t]
  | .slice t, o, old => by
    simp only [exposed, decC, decCore, exposed_erase, exposed_dec e t]
    rfl
  | .array n t, o, old => by
    simp only [exposed, decC, decCore, exposed_erase, exposed_dec e t]
    rfl
  | .map k t, o, old => by simp only [exposed, decC, decCore, exposed_erase, exposed_dec e t]
  | .struct fs, o, old => by
    simp only [exposed, decC, decCore]
    rw [exposed_decStruct, exposed_erases, exposed_decFields e fs, funext fun i => exposed_decNth e fs i _]
  | .bool, o, v | .uint _ _, o, v | .int _ _, o, v | .borshEnum, o, v | .f32, o, v | .f64, o, v | .str, o, v | .iface, o, v
  | .plainInt, o, v | .plainUint, o, v | .other, o, v => by simp only [exposed, decC]
theorem exposed_decFields (e : Encoding) : (fs : Fields) → (sm : List (Bytes × Int)) → (seen : Bool) → (vs : List Val) →
    decFieldsC e (exposedFields fs) sm seen vs = decFields e fs sm seen vs
  | .nil, sm, seen, vs => by simp only [exposedFields, decFieldsC, decFields]
  | .cons m t fs, sm, seen, [] => by simp only [exposedFields, decFieldsC, decFields]
  | .cons m t fs, sm, seen, v :: vs => by
    simp only [exposedFields, decFieldsC, decFields, exposed_erase, exposed_dec e t, exposed_decFields e fs, exposed_field,
      exposed_direct]
    by_cases hb : e = .borsh
    · simp only [hb, if_true]
      cases t.directLib <;> simp
    · simp only [hb, if_false]
theorem exposed_decNth (e : Encoding) : (fs : Fields) → (i : Nat) → (vs : List Val) →
    decNthC e (exposedFields fs) i vs = decNth e fs i vs
  | .nil, i, vs => by simp only [exposedFields, decNthC, decNth]
  | .cons m t fs, 0, [] => by simp only [exposedFields, decNthC, decNth]
  | .cons m t fs, 0, v :: vs => by simp only [exposedFields, decNthC, decNth, exposed_dec e t]
  | .cons m t fs, i + 1, [] => by simp only [exposedFields, decNthC, decNth]
  | .cons m t fs, i + 1, v :: vs => by simp only [exposedFields, decNthC, decNth, exposed_decNth e fs i vs]
end

/-- **C95** Types with methods are treated the way the main model treats those of the library: replacing each library type by a type with
the same underlying type and methods changes nothing, for any type, value, destination, input and encoding. -/
theorem C95_like_library (e : Encoding) (t : Ty) (v old : Val) (b : Bytes) :
    marshalC e (exposed t) v = marshal e t v ∧ unmarshalC e (exposed t) old b = unmarshal e t old b := by
  constructor
  · have : encodeC (exposed t) v = encode t v := by
      unfold encodeC encode
      simp only [exposed_enc]
    unfold marshalC marshal
    rw [this]
  · have : decodeC (exposed t) old = decode t old := by
      unfold decodeC decode
      simp only [exposed_dec]
    unfold unmarshalC unmarshal
    rw [this]

/-! ### what is written and what is read -/

/-- **C95** (encoding) If `Written` relates a value to bytes, the encoder succeeds and has written these bytes. -/
theorem C95_encode_partial (e : Encoding) (he : e.valid = true) (c : CTy) (v : Val) (bs : Bytes)
    (h : Written e c .le none v bs) : marshalC e c v = (.ok (), bs) := by
  obtain ⟨cs, k, h1, h2⟩ := EWat.set (encC_w he c {} v bs h) (Enc.new e) rfl (fun _ _ => rfl)
  have h3 : encodeC c v (Enc.new e) = (.ok (), (Enc.new e).left cs k) := by
    unfold encodeC
    rw [M.bind_ok (M.get_apply _), if_neg (show (Enc.new e).enc ≠ .other by
      change e ≠ .other; rintro rfl; cases he)]
    exact h2
  unfold marshalC
  rw [h3]
  simp [Enc.left, Enc.push, Enc.new, Enc.out, h1]

/-- **C95** (decoding) If `ReadAs` relates bytes to a value, decoding them into a fresh variable succeeds with this value, whatever
follows them, and reads no further. -/
theorem C95_decode_partial (e : Encoding) (he : e.valid = true) (c : CTy) (bs tail : Bytes) (r : Val)
    (h : ReadAs e c .le none bs r) :
    unmarshalC e c c.erase.zero (bs ++ tail) = .ok r ∧
    (decodeC c c.erase.zero (Dec.new (bs ++ tail) e)).2.pos = bs.length := by
  obtain ⟨k, -, h2⟩ := decC_r he c {} bs r (fun _ => rfl) h { Dec.new (bs ++ tail) e with cur := some .le } tail rfl
    (Dec.new_ok (bs ++ tail) e) (Dec.new_rest (bs ++ tail) e) (fun _ => rfl) rfl
  have h3 : decodeC c c.erase.zero (Dec.new (bs ++ tail) e) =
      (.ok r, Dec.to { Dec.new (bs ++ tail) e with cur := some .le } bs.length k) := by
    unfold decodeC
    rw [M.bind_ok (M.get_apply _), if_neg (show (Dec.new (bs ++ tail) e).enc ≠ .other by
      change e ≠ .other; rintro rfl; cases he)]
    exact h2
  unfold unmarshalC
  rw [h3]
  exact ⟨rfl, by simp [Dec.to, Dec.adv, Dec.new]⟩

/-- **C95** (round trip) -/
theorem C95_roundtrip_partial (e : Encoding) (he : e.valid = true) (c : CTy) (v r : Val) (bs : Bytes)
    (hw : Written e c .le none v bs) (hr : ReadAs e c .le none bs r) :
    ∃ b, marshalC e c v = (.ok (), b) ∧ unmarshalC e c c.erase.zero b = .ok r := by
  refine ⟨bs, C95_encode_partial e he c v bs hw, ?_⟩
  have := (C95_decode_partial e he c bs [] r hr).1
  rwa [List.append_nil] at this

/-! ### where methods are not called -/

mutual
theorem unpointed_erase : (b : Bool) → (c : CTy) → (unpointed b c).erase = c.erase
  | _, .plain _ => by simp only [unpointed]
  | _, .user c _ _ => by simp only [unpointed, CTy.erase, unpointed_erase false c]
  | _, .ptr c => by simp only [unpointed, CTy.erase, unpointed_erase true c]
  | _, .slice c => by simp only [unpointed, CTy.erase, unpointed_erase false c]
  | _, .array _ c => by simp only [unpointed, CTy.erase, unpointed_erase false c]
  | _, .map _ c => by simp only [unpointed, CTy.erase, unpointed_erase false c]
  | _, .struct fs => by simp only [unpointed, CTy.erase, unpointed_erases fs]
theorem unpointed_erases : (fs : CFields) → (unpointedFields fs).erase = fs.erase
  | .nil => by simp only [unpointedFields]
  | .cons _ c fs => by simp only [unpointedFields, CFields.erase, unpointed_erase false c, unpointed_erases fs]
end

theorem unpointed_method (c : CTy) : (unpointed true c).method = c.method := by
  cases c <;> simp only [unpointed, CTy.method]
  rename_i m u
  cases m <;> simp

theorem unpointed_length : (fs : CFields) → (unpointedFields fs).length = fs.length
  | .nil => by simp only [unpointedFields]
  | .cons m t fs => by simp only [unpointedFields, CFields.length, unpointed_length fs]

theorem unpointed_isEnum (fs : CFields) : (unpointedFields fs).isEnum = fs.isEnum := by
  cases fs with
  | nil => simp only [unpointedFields]
  | cons m c fs =>
    cases c <;> simp only [unpointedFields, unpointed, CFields.isEnum]
    rename_i t
    cases t <;> rfl

theorem unpointed_struct (e : Encoding) (fs : CFields) (vs : List Val) (a : EM Unit) (b : Nat → EM Unit) :
    encStructC e (unpointedFields fs) vs a b = encStructC e fs vs a b := by
  unfold encStructC
  rw [unpointed_isEnum, unpointed_length]

mutual
theorem unpointed_enc (e : Encoding) : (b : Bool) → (c : CTy) → (o : Opt) → (v : Val) →
    encC e (unpointed b c) o v = encC e c o v
  | _, .plain _, o, v => by simp only [unpointed]
  | b, .user c m u, o, v => by
    cases m with
    | none => simp only [unpointed, encC, unpointed_enc e false c]
    | value f => simp only [unpointed, encC]
    | pointer f => cases b <;> simp [unpointed, encC, unpointed_enc e false c]
  | _, .ptr c, o, v => by
    cases v <;> simp only [unpointed, encC, unpointed_erase, unpointed_method, unpointed_enc e true c]
  | _, .slice c, o, v => by
    cases v <;> simp only [unpointed, encC, unpointed_erase, unpointed_enc e false c]
  | _, .array n c, o, v => by
    cases v <;> simp only [unpointed, encC, unpointed_erase, unpointed_enc e false c]
  | _, .map k c, o, v => by
    cases v <;> simp only [unpointed, encC, unpointed_enc e false c]
  | _, .struct fs, o, v => by
    cases v <;> simp only [unpointed, encC]
    rename_i vs
    rw [unpointed_struct, unpointed_encFields e fs [] vs, funext fun i => unpointed_encNth e fs i vs]
theorem unpointed_encFields (e : Encoding) : (fs : CFields) → (sm : List (Bytes × Int)) → (vs : List Val) →
    encFieldsC e (unpointedFields fs) sm vs = encFieldsC e fs sm vs
  | .nil, sm, vs => by simp only [unpointedFields]
  | .cons m c fs, sm, [] => by simp only [unpointedFields, encFieldsC]
  | .cons m c fs, sm, v :: vs => by
    simp only [unpointedFields, encFieldsC, unpointed_erase, unpointed_enc e false c, unpointed_encFields e fs]
theorem unpointed_encNth (e : Encoding) : (fs : CFields) → (i : Nat) → (vs : List Val) →
    encNthC e (unpointedFields fs) i vs = encNthC e fs i vs
  | .nil, i, vs => by simp only [unpointedFields]
  | .cons m c fs, 0, [] => by simp only [unpointedFields, encNthC]
  | .cons m c fs, 0, v :: vs => by simp only [unpointedFields, encNthC, unpointed_payload e false c v]
  | .cons m c fs, i + 1, [] => by simp only [unpointedFields, encNthC]
  | .cons m c fs, i + 1, v :: vs => by simp only [unpointedFields, encNthC, unpointed_encNth e fs i vs]
theorem unpointed_payload (e : Encoding) : (b : Bool) → (c : CTy) → (v : Val) →
    encPayloadC e (unpointed b c) v = encPayloadC e c v
  | _, .plain _, v => by simp only [unpointed]
  | _, .user c m u, v => by cases v <;> simp only [unpointed, encPayloadC, unpointed_variant e false c]
  | _, .ptr c, v => by cases v <;> simp only [unpointed, encPayloadC, unpointed_variant e true c]
  | _, .struct fs, v => by
    cases v <;> simp only [unpointed, encPayloadC]
    rename_i vs
    rw [unpointed_struct, unpointed_encFields e fs [] vs, funext fun i => unpointed_encNth e fs i vs]
  | _, .slice _, v => by simp only [unpointed, encPayloadC]
  | _, .array _ _, v => by simp only [unpointed, encPayloadC]
  | _, .map _ _, v => by simp only [unpointed, encPayloadC]
theorem unpointed_variant (e : Encoding) : (b : Bool) → (c : CTy) → (v : Val) →
    encVariantC e (unpointed b c) v = encVariantC e c v
  | _, .plain _, v => by simp only [unpointed]
  | _, .user c m u, v => by cases v <;> simp only [unpointed, encVariantC, unpointed_variant e false c]
  | _, .ptr c, v => by simp only [unpointed, encVariantC]
  | _, .struct fs, v => by
    cases v <;> simp only [unpointed, encVariantC]
    rename_i vs
    rw [unpointed_struct, unpointed_encFields e fs [] vs, funext fun i => unpointed_encNth e fs i vs]
  | _, .slice _, v => by simp only [unpointed, encVariantC]
  | _, .array _ _, v => by simp only [unpointed, encVariantC]
  | _, .map _ _, v => by simp only [unpointed, encVariantC]
end

/-- **C95** A `MarshalWithEncoder` with pointer receiver has no effect except on values directly behind a pointer: without all others the
encoding is the same. -/
theorem C95_pointer_receiver (e : Encoding) (c : CTy) (v : Val) : marshalC e (unpointed false c) v = marshalC e c v := by
  have : encodeC (unpointed false c) v = encodeC c v := by
    unfold encodeC
    simp only [unpointed_enc]
  unfold marshalC
  rw [this]

/-- **C95** Slices and arrays of a type whose kind is an unsigned integer are written and read without its methods. -/
theorem C95_bulk (e : Encoding) (c : CTy) (w : Width) (hw : c.erase.uintKind = some w) (n : Nat) (v old : Val) (b : Bytes) :
    marshalC e (.slice c) v = marshal e (.slice c.erase) v ∧ marshalC e (.array n c) v = marshal e (.array n c.erase) v ∧
    unmarshalC e (.slice c) old b = unmarshal e (.slice c.erase) old b ∧
    unmarshalC e (.array n c) old b = unmarshal e (.array n c.erase) old b := by
  have h1 : ∀ o v, encC e (.slice c) o v = encCore e (.slice c.erase) o v := by
    intro o v
    cases v <;> simp only [encC, encCore, hw]
    rfl
  have h2 : ∀ o v, encC e (.array n c) o v = encCore e (.array n c.erase) o v := by
    intro o v
    cases v <;> simp only [encC, encCore, hw]
  have h3 : ∀ o v, decC e (.slice c) o v = decCore e (.slice c.erase) o v := by
    intro o v
    simp only [decC, decCore, hw]
    rfl
  have h4 : ∀ o v, decC e (.array n c) o v = decCore e (.array n c.erase) o v := by
    intro o v
    simp only [decC, decCore, hw]
  have enc : ∀ c t, (∀ o, encC e c o v = encCore e t o v) → marshalC e c v = marshal e t v := by
    intro c t h
    have : encodeC c v (Enc.new e) = encode t v (Enc.new e) := by
      unfold encodeC encode
      rw [M.bind_ok (M.get_apply _), M.bind_ok (M.get_apply _)]
      rw [show (Enc.new e).enc = e from rfl, h]
    unfold marshalC marshal
    rw [this]
  have dec : ∀ c t, (∀ o, decC e c o old = decCore e t o old) → unmarshalC e c old b = unmarshal e t old b := by
    intro c t h
    have : decodeC c old (Dec.new b e) = decode t old (Dec.new b e) := by
      unfold decodeC decode
      rw [M.bind_ok (M.get_apply _), M.bind_ok (M.get_apply _)]
      rw [show (Dec.new b e).enc = e from rfl, h]
    unfold unmarshalC unmarshal
    rw [this]
  exact ⟨enc _ _ fun o => h1 o v, enc _ _ fun o => h2 o v, dec _ _ fun o => h3 o old, dec _ _ fun o => h4 o old⟩

end Verif.Props
