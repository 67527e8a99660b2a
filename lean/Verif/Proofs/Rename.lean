import Verif.Model.EncodeReflect
import Verif.Model.DecodeReflect
import Verif.Spec.Rename
/-!
# The coder under a change of field names
-/
set_option linter.unusedSimpArgs false
set_option linter.unusedVariables false
namespace Verif.Spec
open Verif

theorem renamed_kind (ρ : Bytes → Bytes) (t : Ty) : (renamed ρ t).kind = t.kind := by
  cases t <;> simp [renamed, Ty.kind]

theorem renamed_uintKind (ρ : Bytes → Bytes) (t : Ty) : (renamed ρ t).uintKind = t.uintKind := by
  simp [Ty.uintKind, renamed_kind]

theorem renamed_asLib (ρ : Bytes → Bytes) (t : Ty) : (renamed ρ t).asLib = t.asLib := by
  cases t <;> simp [renamed, Ty.asLib]

theorem renamed_directLib (ρ : Bytes → Bytes) (t : Ty) : (renamed ρ t).directLib = t.directLib := by
  cases t <;> simp [renamed, Ty.directLib, renamed_asLib]

theorem renamed_sortable (ρ : Bytes → Bytes) (t : Ty) : (renamed ρ t).sortable = t.sortable := by
  cases t <;> simp [renamed, Ty.sortable, Ty.kind]

theorem renamed_length (ρ : Bytes → Bytes) : ∀ fs : Fields, (renamedFields ρ fs).length = fs.length
  | .nil => rfl
  | .cons _ _ fs => by simp [renamedFields, Fields.length, renamed_length ρ fs]

theorem renamed_isEnum (ρ : Bytes → Bytes) (fs : Fields) : (renamedFields ρ fs).isEnum = fs.isEnum := by
  cases fs with
  | nil => rfl
  | cons m t fs => cases t <;> simp [renamedFields, renamed, Fields.isEnum, renamedMeta]

mutual
theorem renamed_zero (ρ : Bytes → Bytes) : ∀ t : Ty, (renamed ρ t).zero = t.zero
  | .bool | .uint _ _ | .int _ _ | .borshEnum | .f32 | .f64 | .str | .lib _ | .ptr _ | .slice _ | .map _ _ | .iface
  | .plainInt | .plainUint | .other => by simp [renamed, Ty.zero]
  | .array n t => by simp [renamed, Ty.zero, renamed_zero ρ t]
  | .struct fs => by simp [renamed, Ty.zero, renamed_zeros ρ fs]
theorem renamed_zeros (ρ : Bytes → Bytes) : ∀ fs : Fields, (renamedFields ρ fs).zeros = fs.zeros
  | .nil => rfl
  | .cons _ t fs => by simp [renamedFields, Fields.zeros, renamed_zero ρ t, renamed_zeros ρ fs]
end

mutual
theorem renamed_isZero (ρ : Bytes → Bytes) : ∀ (t : Ty) (v : Val), (renamed ρ t).isZero v = t.isZero v
  | .bool, v | .uint _ _, v | .int _ _, v | .borshEnum, v | .f32, v | .f64, v | .str, v | .lib _, v | .ptr _, v | .slice _, v
  | .map _ _, v | .iface, v | .plainInt, v | .plainUint, v | .other, v => by cases v <;> simp [renamed, Ty.isZero]
  | .array n t, v => by
    have := fun x => renamed_isZero ρ t x
    cases v <;> simp [renamed, Ty.isZero, this]
  | .struct fs, v => by
    have := fun x => renamed_allZero ρ fs x
    cases v <;> simp [renamed, Ty.isZero, this]
theorem renamed_allZero (ρ : Bytes → Bytes) : ∀ (fs : Fields) (vs : List Val), (renamedFields ρ fs).allZero vs = fs.allZero vs
  | .nil, vs => by cases vs <;> rfl
  | .cons _ t fs, vs => by
    have h1 := fun x => renamed_isZero ρ t x
    have h2 := fun x => renamed_allZero ρ fs x
    cases vs <;> simp [renamedFields, Fields.allZero, h1, h2]
end

mutual
theorem renamed_found (ρ : Bytes → Bytes) : ∀ (t : Ty) (v : Val), (renamed ρ t).found v = t.found v
  | .bool, v | .uint _ _, v | .int _ _, v | .borshEnum, v | .f32, v | .f64, v | .str, v | .ptr _, v | .slice _, v
  | .map _ _, v | .iface, v | .plainInt, v | .plainUint, v | .other, v => by cases v <;> simp [renamed, Ty.found]
  | .lib l, v => by simp [renamed]
  | .array n t, v => by
    have := fun x => renamed_found ρ t x
    cases v <;> simp [renamed, Ty.found, this]
  | .struct fs, v => by
    have := fun x => renamed_founds ρ fs x
    cases v <;> simp [renamed, Ty.found, this]
theorem renamed_founds (ρ : Bytes → Bytes) : ∀ (fs : Fields) (vs : List Val), (renamedFields ρ fs).found vs = fs.found vs
  | .nil, vs => by cases vs <;> rfl
  | .cons _ t fs, vs => by
    have h1 := fun x => renamed_found ρ t x
    have h2 := fun x => renamed_founds ρ fs x
    cases vs <;> simp [renamedFields, Fields.found, h1, h2]
end

mutual
theorem renamed_keyEq (ρ : Bytes → Bytes) : ∀ (t : Ty) (x y : Val), (renamed ρ t).keyEq x y = t.keyEq x y
  | .bool, x, y | .uint _ _, x, y | .int _ _, x, y | .borshEnum, x, y | .f32, x, y | .f64, x, y | .str, x, y
  | .ptr _, x, y | .slice _, x, y | .map _ _, x, y | .iface, x, y | .plainInt, x, y | .plainUint, x, y | .other, x, y => by
    cases x <;> cases y <;> simp [renamed, Ty.keyEq]
  | .lib l, x, y => by simp [renamed]
  | .array n t, x, y => by
    have := fun x y => renamed_keyEq ρ t x y
    cases x <;> cases y <;> simp [renamed, Ty.keyEq, this]
  | .struct fs, x, y => by
    have := fun x y => renamed_keysEq ρ fs x y
    cases x <;> cases y <;> simp [renamed, Ty.keyEq, this]
theorem renamed_keysEq (ρ : Bytes → Bytes) : ∀ (fs : Fields) (xs ys : List Val), (renamedFields ρ fs).keysEq xs ys = fs.keysEq xs ys
  | .nil, xs, ys => by cases xs <;> cases ys <;> rfl
  | .cons _ t fs, xs, ys => by
    have h1 := fun x y => renamed_keyEq ρ t x y
    have h2 := fun x y => renamed_keysEq ρ fs x y
    cases xs <;> cases ys <;> simp [renamedFields, Fields.keysEq, h1, h2]
end

theorem renamed_setEntry (ρ : Bytes → Bytes) (k : Ty) (x : Val × Val) (m : List (Val × Val)) :
    setEntry (renamed ρ k) x m = setEntry k x m := by
  induction m with
  | nil => rfl
  | cons y ys ih => simp [setEntry, renamed_keyEq, ih]

theorem renamed_mapEntries (ρ : Bytes → Bytes) (e : Encoding) (k : Ty) (m : List (Val × Val)) :
    mapEntries e (renamed ρ k) m = mapEntries e k m := by
  simp [mapEntries, sortedEntries, renamed_sortable, renamed_kind]

theorem renamed_absentBase (ρ : Bytes → Bytes) : ∀ t : Ty, absentBase (renamed ρ t) = absentBase t
  | .ptr t => by simp [renamed, absentBase, renamed_absentBase ρ t]
  | .bool | .uint _ _ | .int _ _ | .borshEnum | .f32 | .f64 | .str | .lib _ | .slice _ | .map _ _ | .iface
  | .plainInt | .plainUint | .other => by simp [renamed, absentBase, Ty.zero]
  | .array n t => by simp [renamed, absentBase, Ty.zero, renamed_zero]
  | .struct fs => by simp [renamed, absentBase, Ty.zero, renamed_zeros]

theorem renamed_baseLib (ρ : Bytes → Bytes) : ∀ t : Ty, (renamed ρ t).baseLib = t.baseLib
  | .ptr t => by simp [renamed, Ty.baseLib, renamed_baseLib ρ t]
  | .bool | .uint _ _ | .int _ _ | .borshEnum | .f32 | .f64 | .str | .lib _ | .slice _ | .map _ _ | .iface
  | .plainInt | .plainUint | .other | .array _ _ | .struct _ => by simp [renamed, Ty.baseLib]

theorem absentVal_flat (t : Ty) (v : Val) (h : ∀ u, t ≠ .ptr (.ptr u)) : absentVal t v = t.zero := by
  unfold absentVal
  split
  · exact absurd rfl (h _)
  · rfl

theorem renamed_absentVal (ρ : Bytes → Bytes) : ∀ (t : Ty) (v : Val), absentVal (renamed ρ t) v = absentVal t v
  | .ptr (.ptr t), v => by
    have := fun x => renamed_absentVal ρ (.ptr t) x
    simp only [renamed] at this
    cases v with
    | ptr p => cases p <;> simp [renamed, absentVal, Ty.zero, this]
    | _ => simp [renamed, absentVal, Ty.zero]
  | .bool, v | .uint _ _, v | .int _ _, v | .borshEnum, v | .f32, v | .f64, v | .str, v | .lib _, v | .slice _, v
  | .map _ _, v | .iface, v | .plainInt, v | .plainUint, v | .other, v | .array _ _, v | .struct _, v
  | .ptr .bool, v | .ptr (.uint _ _), v | .ptr (.int _ _), v | .ptr .borshEnum, v | .ptr .f32, v | .ptr .f64, v | .ptr .str, v
  | .ptr (.lib _), v | .ptr (.slice _), v | .ptr (.map _ _), v | .ptr .iface, v | .ptr .plainInt, v | .ptr .plainUint, v
  | .ptr .other, v | .ptr (.array _ _), v | .ptr (.struct _), v => by
    rw [absentVal_flat _ _ (by simp [renamed]), absentVal_flat _ _ (by simp), renamed_zero]

/-- The sizes recorded so far, under the new names. -/
def renamedSizes (ρ : Bytes → Bytes) (sm : List (Bytes × Int)) : List (Bytes × Int) := sm.map fun x => (ρ x.1, x.2)

theorem renamed_lookup {ρ : Bytes → Bytes} (h : Renaming ρ) (n : Bytes) (sm : List (Bytes × Int)) :
    lookupSize (ρ n) (renamedSizes ρ sm) = lookupSize n sm := by
  induction sm with
  | nil => rfl
  | cons x sm ih =>
    have : (ρ x.1 = ρ n) = (x.1 = n) := propext ⟨h.1 _ _, congrArg ρ⟩
    simp only [renamedSizes, List.map_cons, lookupSize, this]
    rw [← ih]; rfl

theorem renamed_fieldOpt {ρ : Bytes → Bytes} (h : Renaming ρ) (m : FieldMeta) (sm : List (Bytes × Int)) :
    fieldOpt (renamedMeta ρ m) (renamedSizes ρ sm) = fieldOpt m sm := by
  simp [fieldOpt, renamedMeta, renamed_lookup h]

/-- What follows the recording of a size. -/
theorem renamed_recordSize {ρ : Bytes → Bytes} (h : Renaming ρ) {σ α : Type} (m : FieldMeta) (t : Ty) (v : Val) (sm : List (Bytes × Int))
    (f g : List (Bytes × Int) → M σ α) (hfg : ∀ sm, f (renamedSizes ρ sm) = g sm) :
    (recordSize (renamedMeta ρ m) (renamed ρ t) v (renamedSizes ρ sm) >>= f) = (recordSize m t v sm >>= g) := by
  have h0 : (ρ m.tag.sizeOf = []) = (m.tag.sizeOf = []) :=
    propext ⟨fun hs => h.1 _ _ (hs.trans h.2.symm), fun hs => by rw [hs, h.2]⟩
  simp only [recordSize, renamedMeta, renamed_kind, h0]
  split
  · exact hfg sm
  · cases sizeofVal t.kind v with
    | ok n => exact hfg ((m.tag.sizeOf, n) :: sm)
    | err x => rfl
    | panic => rfl

theorem renamed_encFlags (ρ : Bytes → Bytes) (e : Encoding) (t : Ty) (o : Opt) (v : Val) :
    encFlags e (renamed ρ t) o v = encFlags e t o v := by
  simp only [encFlags, renamed_isZero]

theorem renamed_encStruct (ρ : Bytes → Bytes) (e : Encoding) (fs : Fields) (vs : List Val) (f : EM Unit) (g : Nat → EM Unit) :
    encStruct e (renamedFields ρ fs) vs f g = encStruct e fs vs f g := by
  simp only [encStruct, renamed_isEnum, renamed_length]

theorem renamed_decStruct (ρ : Bytes → Bytes) (e : Encoding) (fs : Fields) (f : DM (List Val)) (g : Nat → DM (List Val)) :
    decStruct e (renamedFields ρ fs) f g = decStruct e fs f g := by
  simp only [decStruct, renamed_isEnum, renamed_length]

theorem renamed_decField (ρ : Bytes → Bytes) (e : Encoding) (t : Ty) (o : Opt) (old : Val) (core : DM Val) :
    decField e (renamed ρ t) o old core = decField e t o old core := by
  simp only [decField, renamed_asLib, renamed_baseLib, renamed_absentBase, renamed_absentVal]

theorem renamed_deref (ρ : Bytes → Bytes) (t : Ty) (v : Val) : v.deref (renamed ρ t) = v.deref t := by
  simp only [Val.deref, renamed_zero]

theorem renamed_elems (ρ : Bytes → Bytes) (n : Nat) (t : Ty) (v : Val) : v.elems n (renamed ρ t) = v.elems n t := by
  simp only [Val.elems, renamed_zero]

theorem renamed_fields (ρ : Bytes → Bytes) (fs : Fields) (v : Val) : v.fields (renamedFields ρ fs) = v.fields fs := by
  simp only [Val.fields, renamed_zeros]

mutual
theorem renamed_encCore {ρ : Bytes → Bytes} (h : Renaming ρ) (e : Encoding) : ∀ (t : Ty) (o : Opt) (v : Val),
    encCore e (renamed ρ t) o v = encCore e t o v
  | .bool, o, v | .uint _ _, o, v | .int _ _, o, v | .borshEnum, o, v | .f32, o, v | .f64, o, v | .str, o, v
  | .plainInt, o, v | .plainUint, o, v | .other, o, v | .lib _, o, v | .iface, o, v => by simp only [renamed]
  | .ptr t, o, v => by
    have := fun o x => renamed_encCore h e t o x
    cases v <;> simp only [renamed, encCore, renamed_asLib, renamed_zero, this]
  | .slice t, o, v => by
    have := fun o x => renamed_encCore h e t o x
    cases v <;> simp only [renamed, encCore, renamed_uintKind, this]
  | .array n t, o, v => by
    have := fun o x => renamed_encCore h e t o x
    cases v <;> simp only [renamed, encCore, renamed_uintKind, this]
  | .map k t, o, v => by
    have h1 := fun o x => renamed_encCore h e k o x
    have h2 := fun o x => renamed_encCore h e t o x
    cases v <;> simp only [renamed, encCore, renamed_mapEntries, renamed_found, h1, h2]
  | .struct fs, o, v => by
    have h1 := fun vs => renamed_encFields h e fs [] vs
    have h2 := fun i vs => renamed_encNth h e fs i vs
    simp only [renamedSizes, List.map_nil] at h1
    cases v <;> simp only [renamed, encCore, renamed_encStruct, h1, h2]
theorem renamed_encFields {ρ : Bytes → Bytes} (h : Renaming ρ) (e : Encoding) : ∀ (fs : Fields) (sm : List (Bytes × Int)) (vs : List Val),
    encFields e (renamedFields ρ fs) (renamedSizes ρ sm) vs = encFields e fs sm vs
  | .nil, sm, vs => by simp only [renamedFields, encFields]
  | .cons m t fs, sm, [] => by simp only [renamedFields, encFields]
  | .cons m t fs, sm, v :: vs => by
    have h1 := fun o x => renamed_encCore h e t o x
    have h2 := fun sm vs => renamed_encFields h e fs sm vs
    have hs : (renamedMeta ρ m).tag.skip = m.tag.skip := rfl
    simp only [renamedFields, encFields, hs, h2]
    split
    · rfl
    · apply renamed_recordSize h
      intro sm
      have hx : (renamedMeta ρ m).exported = m.exported := rfl
      have ho : (renamedMeta ρ m).tag.order = m.tag.order := rfl
      simp only [renamed_fieldOpt h, renamed_encFlags, h1, h2, hx, ho]
theorem renamed_encNth {ρ : Bytes → Bytes} (h : Renaming ρ) (e : Encoding) : ∀ (fs : Fields) (i : Nat) (vs : List Val),
    encNth e (renamedFields ρ fs) i vs = encNth e fs i vs
  | .nil, i, vs => by simp only [renamedFields]
  | .cons m t fs, i, [] => by cases i <;> simp only [renamedFields, encNth]
  | .cons m t fs, 0, v :: vs => by
    simp only [renamedFields, encNth, renamed_encPayload h e t v]
  | .cons m t fs, i + 1, v :: vs => by
    simp only [renamedFields, encNth, renamed_encNth h e fs i vs]
theorem renamed_encPayload {ρ : Bytes → Bytes} (h : Renaming ρ) (e : Encoding) : ∀ (t : Ty) (v : Val),
    encPayload e (renamed ρ t) v = encPayload e t v
  | .bool, v | .uint _ _, v | .int _ _, v | .borshEnum, v | .f32, v | .f64, v | .str, v
  | .plainInt, v | .plainUint, v | .other, v | .lib _, v | .iface, v => by simp only [renamed]
  | .slice t, v | .array _ t, v | .map _ t, v => by simp only [renamed, encPayload, Ty.kind]
  | .ptr t, v => by
    have := fun x => renamed_encVariant h e t x
    cases v <;> simp only [renamed, encPayload, this]
  | .struct fs, v => by
    have h1 := fun vs => renamed_encFields h e fs [] vs
    have h2 := fun i vs => renamed_encNth h e fs i vs
    simp only [renamedSizes, List.map_nil] at h1
    cases v <;> simp only [renamed, encPayload, renamed_encStruct, h1, h2]
theorem renamed_encVariant {ρ : Bytes → Bytes} (h : Renaming ρ) (e : Encoding) : ∀ (t : Ty) (v : Val),
    encVariant e (renamed ρ t) v = encVariant e t v
  | .bool, v | .uint _ _, v | .int _ _, v | .borshEnum, v | .f32, v | .f64, v | .str, v
  | .plainInt, v | .plainUint, v | .other, v | .lib _, v | .iface, v => by simp only [renamed]
  | .slice t, v | .array _ t, v | .map _ t, v | .ptr t, v => by simp only [renamed, encVariant, Ty.kind]
  | .struct fs, v => by
    have h1 := fun vs => renamed_encFields h e fs [] vs
    have h2 := fun i vs => renamed_encNth h e fs i vs
    simp only [renamedSizes, List.map_nil] at h1
    cases v <;> simp only [renamed, encVariant, renamed_encStruct, h1, h2]
end

mutual
theorem renamed_decCore {ρ : Bytes → Bytes} (h : Renaming ρ) (e : Encoding) : ∀ (t : Ty) (o : Opt) (old : Val),
    decCore e (renamed ρ t) o old = decCore e t o old
  | .bool, o, v | .uint _ _, o, v | .int _ _, o, v | .borshEnum, o, v | .f32, o, v | .f64, o, v | .str, o, v
  | .plainInt, o, v | .plainUint, o, v | .other, o, v | .lib _, o, v | .iface, o, v => by simp only [renamed]
  | .ptr t, o, v => by
    have := fun o x => renamed_decCore h e t o x
    simp only [renamed, decCore, renamed_deref, this]
  | .slice t, o, v => by
    have := fun o x => renamed_decCore h e t o x
    simp only [renamed, decCore, renamed_uintKind, renamed_zero, this]
  | .array n t, o, v => by
    have := fun o x => renamed_decCore h e t o x
    simp only [renamed, decCore, renamed_uintKind, renamed_elems, this]
  | .map k t, o, v => by
    have h1 := fun o x => renamed_decCore h e k o x
    have h2 := fun o x => renamed_decCore h e t o x
    simp only [renamed, decCore, renamed_zero, renamed_setEntry, h1, h2]
  | .struct fs, o, v => by
    have h1 := fun b vs => renamed_decFields h e fs [] b vs
    have h2 := fun i vs => renamed_decNth h e fs i vs
    simp only [renamedSizes, List.map_nil] at h1
    simp only [renamed, decCore, renamed_decStruct, renamed_fields, h1, h2]
theorem renamed_decFields {ρ : Bytes → Bytes} (h : Renaming ρ) (e : Encoding) :
    ∀ (fs : Fields) (sm : List (Bytes × Int)) (seen : Bool) (vs : List Val),
    decFields e (renamedFields ρ fs) (renamedSizes ρ sm) seen vs = decFields e fs sm seen vs
  | .nil, sm, seen, vs => by simp only [renamedFields, decFields]
  | .cons m t fs, sm, seen, [] => by simp only [renamedFields, decFields]
  | .cons m t fs, sm, seen, v :: vs => by
    have h1 := fun o x => renamed_decCore h e t o x
    have h2 := fun sm seen vs => renamed_decFields h e fs sm seen vs
    have hs : (renamedMeta ρ m).tag.skip = m.tag.skip := rfl
    have hb : (renamedMeta ρ m).tag.binExt = m.tag.binExt := rfl
    have hx : (renamedMeta ρ m).exported = m.exported := rfl
    have he : extensionEnds (renamedMeta ρ m) = extensionEnds m := rfl
    have h3 := fun x sm => renamed_recordSize h (σ := Dec) m t x sm
      (fun sm => decFields e (renamedFields ρ fs) sm (seen || m.tag.binExt) vs >>= fun rest => pure (x :: rest))
      (fun sm => decFields e fs sm (seen || m.tag.binExt) vs >>= fun rest => pure (x :: rest))
      (fun sm => by simp only [h2])
    simp only [renamedFields, decFields, hs, hb, hx, he, renamed_directLib, renamed_fieldOpt h, renamed_decField, h1, h2, h3]
theorem renamed_decNth {ρ : Bytes → Bytes} (h : Renaming ρ) (e : Encoding) : ∀ (fs : Fields) (i : Nat) (vs : List Val),
    decNth e (renamedFields ρ fs) i vs = decNth e fs i vs
  | .nil, i, vs => by simp only [renamedFields]
  | .cons m t fs, i, [] => by cases i <;> simp only [renamedFields, decNth]
  | .cons m t fs, 0, v :: vs => by
    simp only [renamedFields, decNth, renamed_decCore h e t {} v]
  | .cons m t fs, i + 1, v :: vs => by
    simp only [renamedFields, decNth, renamed_decNth h e fs i vs]
end

end Verif.Spec
