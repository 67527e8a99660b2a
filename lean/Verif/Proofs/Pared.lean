import Verif.Model.EncodeReflect
import Verif.Model.DecodeReflect
import Verif.Spec.Pared
/-!
# The coder without the tags that have no effect
-/
set_option linter.unusedSimpArgs false
set_option linter.unusedVariables false
namespace Verif.Spec
open Verif

theorem pared_kind (e : Encoding) (t : Ty) : (pared e t).kind = t.kind := by
  cases t <;> simp [pared, Ty.kind]

theorem pared_uintKind (e : Encoding) (t : Ty) : (pared e t).uintKind = t.uintKind := by
  simp [Ty.uintKind, pared_kind]

theorem pared_asLib (e : Encoding) (t : Ty) : (pared e t).asLib = t.asLib := by
  cases t <;> simp [pared, Ty.asLib]

theorem pared_directLib (e : Encoding) (t : Ty) : (pared e t).directLib = t.directLib := by
  cases t <;> simp [pared, Ty.directLib, pared_asLib]

theorem pared_sortable (e : Encoding) (t : Ty) : (pared e t).sortable = t.sortable := by
  cases t <;> simp [pared, Ty.sortable, Ty.kind]

theorem pared_length (e : Encoding) : ∀ (g h : FieldTag → FieldTag) (fs : Fields), (paredFields e g h fs).length = fs.length
  | _, _, .nil => rfl
  | _, h, .cons _ _ fs => by simp [paredFields, Fields.length, pared_length e h h fs]

theorem pared_head (e : Encoding) (h : FieldTag → FieldTag) (fs : Fields) : (paredFields e headTag h fs).isEnum = fs.isEnum := by
  cases fs with
  | nil => rfl
  | cons m t fs => cases t <;> simp [paredFields, pared, Fields.isEnum, headTag]

theorem pared_noEnum (e : Encoding) (h : FieldTag → FieldTag) (fs : Fields) : (paredFields e (paredTag e) h fs).isEnum = false := by
  cases fs with
  | nil => rfl
  | cons m t fs =>
    cases t <;> simp [paredFields, pared, Fields.isEnum, paredTag]
    split <;> rfl

mutual
theorem pared_zero (e : Encoding) : ∀ t : Ty, (pared e t).zero = t.zero
  | .bool | .uint _ _ | .int _ _ | .borshEnum | .f32 | .f64 | .str | .lib _ | .ptr _ | .slice _ | .map _ _ | .iface
  | .plainInt | .plainUint | .other => by simp [pared, Ty.zero]
  | .array n t => by simp [pared, Ty.zero, pared_zero e t]
  | .struct fs => by
    have := fun g h => pared_zeros e g h fs
    simp only [pared, Ty.zero]; split <;> simp [this]
theorem pared_zeros (e : Encoding) : ∀ (g h : FieldTag → FieldTag) (fs : Fields), (paredFields e g h fs).zeros = fs.zeros
  | _, _, .nil => rfl
  | _, h, .cons _ t fs => by simp [paredFields, Fields.zeros, pared_zero e t, pared_zeros e h h fs]
end

mutual
theorem pared_isZero (e : Encoding) : ∀ (t : Ty) (v : Val), (pared e t).isZero v = t.isZero v
  | .bool, v | .uint _ _, v | .int _ _, v | .borshEnum, v | .f32, v | .f64, v | .str, v | .lib _, v | .ptr _, v | .slice _, v
  | .map _ _, v | .iface, v | .plainInt, v | .plainUint, v | .other, v => by cases v <;> simp [pared, Ty.isZero]
  | .array n t, v => by
    have := fun x => pared_isZero e t x
    cases v <;> simp [pared, Ty.isZero, this]
  | .struct fs, v => by
    have := fun g h x => pared_allZero e g h fs x
    cases v <;> simp only [pared, Ty.isZero]
    split <;> simp [this]
theorem pared_allZero (e : Encoding) : ∀ (g h : FieldTag → FieldTag) (fs : Fields) (vs : List Val), (paredFields e g h fs).allZero vs = fs.allZero vs
  | _, _, .nil, vs => by cases vs <;> rfl
  | _, h, .cons _ t fs, vs => by
    have h1 := fun x => pared_isZero e t x
    have h2 := fun x => pared_allZero e h h fs x
    cases vs <;> simp [paredFields, Fields.allZero, h1, h2]
end

mutual
theorem pared_found (e : Encoding) : ∀ (t : Ty) (v : Val), (pared e t).found v = t.found v
  | .bool, v | .uint _ _, v | .int _ _, v | .borshEnum, v | .f32, v | .f64, v | .str, v | .ptr _, v | .slice _, v
  | .map _ _, v | .iface, v | .plainInt, v | .plainUint, v | .other, v => by cases v <;> simp [pared, Ty.found]
  | .lib l, v => by simp [pared]
  | .array n t, v => by
    have := fun x => pared_found e t x
    cases v <;> simp [pared, Ty.found, this]
  | .struct fs, v => by
    have := fun g h x => pared_founds e g h fs x
    cases v <;> simp only [pared, Ty.found]
    split <;> simp [this]
theorem pared_founds (e : Encoding) : ∀ (g h : FieldTag → FieldTag) (fs : Fields) (vs : List Val), (paredFields e g h fs).found vs = fs.found vs
  | _, _, .nil, vs => by cases vs <;> rfl
  | _, h, .cons _ t fs, vs => by
    have h1 := fun x => pared_found e t x
    have h2 := fun x => pared_founds e h h fs x
    cases vs <;> simp [paredFields, Fields.found, h1, h2]
end

mutual
theorem pared_keyEq (e : Encoding) : ∀ (t : Ty) (x y : Val), (pared e t).keyEq x y = t.keyEq x y
  | .bool, x, y | .uint _ _, x, y | .int _ _, x, y | .borshEnum, x, y | .f32, x, y | .f64, x, y | .str, x, y
  | .ptr _, x, y | .slice _, x, y | .map _ _, x, y | .iface, x, y | .plainInt, x, y | .plainUint, x, y | .other, x, y => by
    cases x <;> cases y <;> simp [pared, Ty.keyEq]
  | .lib l, x, y => by simp [pared]
  | .array n t, x, y => by
    have := fun x y => pared_keyEq e t x y
    cases x <;> cases y <;> simp [pared, Ty.keyEq, this]
  | .struct fs, x, y => by
    have := fun g h x y => pared_keysEq e g h fs x y
    cases x <;> cases y <;> simp only [pared, Ty.keyEq]
    split <;> simp [this]
theorem pared_keysEq (e : Encoding) : ∀ (g h : FieldTag → FieldTag) (fs : Fields) (xs ys : List Val), (paredFields e g h fs).keysEq xs ys = fs.keysEq xs ys
  | _, _, .nil, xs, ys => by cases xs <;> cases ys <;> rfl
  | _, h, .cons _ t fs, xs, ys => by
    have h1 := fun x y => pared_keyEq e t x y
    have h2 := fun x y => pared_keysEq e h h fs x y
    cases xs <;> cases ys <;> simp [paredFields, Fields.keysEq, h1, h2]
end

theorem pared_setEntry (e : Encoding) (k : Ty) (x : Val × Val) (m : List (Val × Val)) :
    setEntry (pared e k) x m = setEntry k x m := by
  induction m with
  | nil => rfl
  | cons y ys ih => simp [setEntry, pared_keyEq, ih]

theorem pared_mapEntries (e : Encoding) (k : Ty) (m : List (Val × Val)) :
    mapEntries e (pared e k) m = mapEntries e k m := by
  simp [mapEntries, sortedEntries, pared_sortable, pared_kind]

theorem pared_absentBase (e : Encoding) : ∀ t : Ty, absentBase (pared e t) = absentBase t
  | .ptr t => by simp [pared, absentBase, pared_absentBase e t]
  | .bool | .uint _ _ | .int _ _ | .borshEnum | .f32 | .f64 | .str | .lib _ | .slice _ | .map _ _ | .iface
  | .plainInt | .plainUint | .other => by simp [pared, absentBase, Ty.zero]
  | .array n t => by simp [pared, absentBase, Ty.zero, pared_zero]
  | .struct fs => by simp only [pared, absentBase, Ty.zero]; split <;> simp [pared_zeros]

theorem pared_baseLib (e : Encoding) : ∀ t : Ty, (pared e t).baseLib = t.baseLib
  | .ptr t => by simp [pared, Ty.baseLib, pared_baseLib e t]
  | .bool | .uint _ _ | .int _ _ | .borshEnum | .f32 | .f64 | .str | .lib _ | .slice _ | .map _ _ | .iface
  | .plainInt | .plainUint | .other | .array _ _ | .struct _ => by simp [pared, Ty.baseLib]

theorem absentVal_plain (t : Ty) (v : Val) (h : ∀ u, t ≠ .ptr (.ptr u)) : absentVal t v = t.zero := by
  unfold absentVal
  split
  · exact absurd rfl (h _)
  · rfl

theorem pared_absentVal (e : Encoding) : ∀ (t : Ty) (v : Val), absentVal (pared e t) v = absentVal t v
  | .ptr (.ptr t), v => by
    have := fun x => pared_absentVal e (.ptr t) x
    simp only [pared] at this
    cases v with
    | ptr p => cases p <;> simp [pared, absentVal, Ty.zero, this]
    | _ => simp [pared, absentVal, Ty.zero]
  | .bool, v | .uint _ _, v | .int _ _, v | .borshEnum, v | .f32, v | .f64, v | .str, v | .lib _, v | .slice _, v
  | .map _ _, v | .iface, v | .plainInt, v | .plainUint, v | .other, v | .array _ _, v | .struct _, v
  | .ptr .bool, v | .ptr (.uint _ _), v | .ptr (.int _ _), v | .ptr .borshEnum, v | .ptr .f32, v | .ptr .f64, v | .ptr .str, v
  | .ptr (.lib _), v | .ptr (.slice _), v | .ptr (.map _ _), v | .ptr .iface, v | .ptr .plainInt, v | .ptr .plainUint, v
  | .ptr .other, v | .ptr (.array _ _), v | .ptr (.struct _), v => by
    rw [absentVal_plain _ _ (by simp [pared]), absentVal_plain _ _ (by simp), pared_zero]

/-- `coption` is not looked at behind the flags. -/
theorem pared_encOpt (e : Encoding) (c : Bool) : ∀ (t : Ty) (o : Opt) (v : Val), encCore e t { o with coptional := c } v = encCore e t o v
  | .bool, o, v | .uint _ _, o, v | .int _ _, o, v | .borshEnum, o, v | .f32, o, v | .f64, o, v | .str, o, v
  | .plainInt, o, v | .plainUint, o, v | .other, o, v | .lib _, o, v | .slice _, o, v | .array _ _, o, v | .map _ _, o, v
  | .struct _, o, v | .iface, o, v => by cases v <;> simp only [encCore, encPlain]
  | .ptr t, o, v => by
    have := fun o x => pared_encOpt e c t o x
    cases v <;> simp only [encCore, this]

theorem pared_decOpt (e : Encoding) (c : Bool) : ∀ (t : Ty) (o : Opt) (v : Val), decCore e t { o with coptional := c } v = decCore e t o v
  | .bool, o, v | .uint _ _, o, v | .int _ _, o, v | .borshEnum, o, v | .f32, o, v | .f64, o, v | .str, o, v
  | .plainInt, o, v | .plainUint, o, v | .other, o, v | .lib _, o, v | .slice _, o, v | .array _ _, o, v | .map _ _, o, v
  | .struct _, o, v | .iface, o, v => by simp only [decCore, decPlain]
  | .ptr t, o, v => by
    have := fun o x => pared_decOpt e c t o x
    simp only [decCore, this]

/-- The option of a field that is not skipped. -/
theorem pared_fieldOpt (e : Encoding) (m : FieldMeta) (hs : m.tag.skip = false) (sm : List (Bytes × Int)) :
    fieldOpt { m with tag := paredTag e m.tag } sm = { fieldOpt m sm with coptional := m.tag.coption && e == .borsh } := by
  simp [fieldOpt, paredTag, hs]

theorem pared_recordSize {σ : Type} (e : Encoding) (m : FieldMeta) (hs : m.tag.skip = false) (t : Ty) (v : Val) (sm : List (Bytes × Int)) :
    recordSize (σ := σ) { m with tag := paredTag e m.tag } (pared e t) v sm = recordSize m t v sm := by
  simp [recordSize, paredTag, hs, pared_kind]

theorem pared_encFlags (e : Encoding) (t : Ty) (o : Opt) (c : Bool) (hc : o.coptional = c) (v : Val) :
    encFlags e (pared e t) { o with coptional := c && e == .borsh } v = encFlags e t o v := by
  subst hc
  by_cases he : e = .borsh <;> simp [encFlags, pared_isZero, he]

theorem pared_decField (e : Encoding) (t : Ty) (o : Opt) (c : Bool) (hc : o.coptional = c) (old : Val) (core : DM Val) :
    decField e (pared e t) { o with coptional := c && e == .borsh } old core = decField e t o old core := by
  subst hc
  simp only [decField, pared_asLib, pared_baseLib, pared_absentBase, pared_absentVal]
  by_cases he : e = .borsh <;> simp [he]

theorem pared_deref (e : Encoding) (t : Ty) (v : Val) : v.deref (pared e t) = v.deref t := by
  simp only [Val.deref, pared_zero]

theorem pared_elems (e : Encoding) (n : Nat) (t : Ty) (v : Val) : v.elems n (pared e t) = v.elems n t := by
  simp only [Val.elems, pared_zero]

theorem pared_fields (e : Encoding) (g h : FieldTag → FieldTag) (fs : Fields) (v : Val) : v.fields (paredFields e g h fs) = v.fields fs := by
  simp only [Val.fields, pared_zeros]

/-- A struct: an enum is coded by its variants, any other by its fields. -/
theorem pared_struct {α : Type} (e : Encoding) (fs : Fields) (f : Fields → α) (x : α)
    (h1 : e = .borsh → fs.isEnum = true → f (paredFields e headTag (fun _ => {}) fs) = x)
    (h2 : ¬ (e = .borsh ∧ fs.isEnum = true) → f (paredFields e (paredTag e) (paredTag e) fs) = x) :
    f (if e = .borsh ∧ fs.isEnum then paredFields e headTag (fun _ => {}) fs else paredFields e (paredTag e) (paredTag e) fs) = x := by
  split
  · rename_i h; exact h1 h.1 h.2
  · rename_i h; exact h2 h

mutual
theorem pared_encCore (e : Encoding) : ∀ (t : Ty) (o : Opt) (v : Val), encCore e (pared e t) o v = encCore e t o v
  | .bool, o, v | .uint _ _, o, v | .int _ _, o, v | .borshEnum, o, v | .f32, o, v | .f64, o, v | .str, o, v
  | .plainInt, o, v | .plainUint, o, v | .other, o, v | .lib _, o, v | .iface, o, v => by simp only [pared]
  | .ptr t, o, v => by
    have := fun o x => pared_encCore e t o x
    cases v <;> simp only [pared, encCore, pared_asLib, pared_zero, this]
  | .slice t, o, v => by
    have := fun o x => pared_encCore e t o x
    cases v <;> simp only [pared, encCore, pared_uintKind, this]
  | .array n t, o, v => by
    have := fun o x => pared_encCore e t o x
    cases v <;> simp only [pared, encCore, pared_uintKind, this]
  | .map k t, o, v => by
    have h1 := fun o x => pared_encCore e k o x
    have h2 := fun o x => pared_encCore e t o x
    cases v <;> simp only [pared, encCore, pared_mapEntries, pared_found, h1, h2]
  | .struct fs, o, v => by
    have h1 := fun vs => pared_encFields e fs [] vs
    have h2 := fun g h i vs => pared_encNth e g h fs i vs
    cases v <;> simp only [pared, encCore]
    refine pared_struct e fs (fun fs' => encStruct e fs' _ (encFields e fs' [] _) (fun i => encNth e fs' i _)) _ ?_ ?_
    · intro he hen; simp only [encStruct, pared_head, pared_length, h2, if_pos (And.intro he hen)]
    · intro hne; simp only [encStruct, pared_noEnum, h1, hne, and_false, if_false]; simp
theorem pared_encFields (e : Encoding) : ∀ (fs : Fields) (sm : List (Bytes × Int)) (vs : List Val),
    encFields e (paredFields e (paredTag e) (paredTag e) fs) sm vs = encFields e fs sm vs
  | .nil, sm, vs => by simp only [paredFields, encFields]
  | .cons m t fs, sm, [] => by simp only [paredFields, encFields]
  | .cons m t fs, sm, v :: vs => by
    have h1 := fun o x => pared_encCore e t o x
    have h2 := fun sm vs => pared_encFields e fs sm vs
    have hs : (paredTag e m.tag).skip = m.tag.skip := by simp only [paredTag]; split <;> simp_all
    simp only [paredFields, encFields, hs, h2]
    split
    · rfl
    · rename_i hk
      have hk : m.tag.skip = false := by simpa using hk
      have ho : (paredTag e m.tag).order = m.tag.order := by simp [paredTag, hk]
      have hf := fun sm => pared_encFlags e t (fieldOpt m sm) m.tag.coption rfl v
      simp only [pared_recordSize e m hk, pared_fieldOpt e m hk, hf, h1, pared_encOpt, ho]
theorem pared_encNth (e : Encoding) : ∀ (g h : FieldTag → FieldTag) (fs : Fields) (i : Nat) (vs : List Val),
    encNth e (paredFields e g h fs) i vs = encNth e fs i vs
  | _, _, .nil, i, vs => by simp only [paredFields]
  | _, _, .cons m t fs, i, [] => by cases i <;> simp only [paredFields, encNth]
  | _, _, .cons m t fs, 0, v :: vs => by
    simp only [paredFields, encNth, pared_encPayload e t v]
  | _, h, .cons m t fs, i + 1, v :: vs => by
    simp only [paredFields, encNth, pared_encNth e h h fs i vs]
theorem pared_encPayload (e : Encoding) : ∀ (t : Ty) (v : Val), encPayload e (pared e t) v = encPayload e t v
  | .bool, v | .uint _ _, v | .int _ _, v | .borshEnum, v | .f32, v | .f64, v | .str, v
  | .plainInt, v | .plainUint, v | .other, v | .lib _, v | .iface, v => by simp only [pared]
  | .slice t, v | .array _ t, v | .map _ t, v => by simp only [pared, encPayload, Ty.kind]
  | .ptr t, v => by
    have := fun x => pared_encVariant e t x
    cases v <;> simp only [pared, encPayload, this]
  | .struct fs, v => by
    have h1 := fun vs => pared_encFields e fs [] vs
    have h2 := fun g h i vs => pared_encNth e g h fs i vs
    cases v <;> simp only [pared, encPayload]
    refine pared_struct e fs (fun fs' => encStruct e fs' _ (encFields e fs' [] _) (fun i => encNth e fs' i _)) _ ?_ ?_
    · intro he hen; simp only [encStruct, pared_head, pared_length, h2, if_pos (And.intro he hen)]
    · intro hne; simp only [encStruct, pared_noEnum, h1, hne, and_false, if_false]; simp
theorem pared_encVariant (e : Encoding) : ∀ (t : Ty) (v : Val), encVariant e (pared e t) v = encVariant e t v
  | .bool, v | .uint _ _, v | .int _ _, v | .borshEnum, v | .f32, v | .f64, v | .str, v
  | .plainInt, v | .plainUint, v | .other, v | .lib _, v | .iface, v => by simp only [pared]
  | .slice t, v | .array _ t, v | .map _ t, v | .ptr t, v => by simp only [pared, encVariant, Ty.kind]
  | .struct fs, v => by
    have h1 := fun vs => pared_encFields e fs [] vs
    have h2 := fun g h i vs => pared_encNth e g h fs i vs
    cases v <;> simp only [pared, encVariant]
    refine pared_struct e fs (fun fs' => encStruct e fs' _ (encFields e fs' [] _) (fun i => encNth e fs' i _)) _ ?_ ?_
    · intro he hen; simp only [encStruct, pared_head, pared_length, h2, if_pos (And.intro he hen)]
    · intro hne; simp only [encStruct, pared_noEnum, h1, hne, and_false, if_false]; simp
end

mutual
theorem pared_decCore (e : Encoding) : ∀ (t : Ty) (o : Opt) (old : Val), decCore e (pared e t) o old = decCore e t o old
  | .bool, o, v | .uint _ _, o, v | .int _ _, o, v | .borshEnum, o, v | .f32, o, v | .f64, o, v | .str, o, v
  | .plainInt, o, v | .plainUint, o, v | .other, o, v | .lib _, o, v | .iface, o, v => by simp only [pared]
  | .ptr t, o, v => by
    have := fun o x => pared_decCore e t o x
    simp only [pared, decCore, pared_deref, this]
  | .slice t, o, v => by
    have := fun o x => pared_decCore e t o x
    simp only [pared, decCore, pared_uintKind, pared_zero, this]
  | .array n t, o, v => by
    have := fun o x => pared_decCore e t o x
    simp only [pared, decCore, pared_uintKind, pared_elems, this]
  | .map k t, o, v => by
    have h1 := fun o x => pared_decCore e k o x
    have h2 := fun o x => pared_decCore e t o x
    simp only [pared, decCore, pared_zero, pared_setEntry, h1, h2]
  | .struct fs, o, v => by
    have h1 := fun b vs => pared_decFields e fs [] b vs
    have h2 := fun g h i vs => pared_decNth e g h fs i vs
    simp only [pared, decCore]
    refine pared_struct e fs (fun fs' => decStruct e fs' (decFields e fs' [] false (v.fields fs')) (fun i => decNth e fs' i (v.fields fs'))) _ ?_ ?_
    · intro he hen; simp only [decStruct, pared_head, pared_length, pared_fields, h2, if_pos (And.intro he hen)]
    · intro hne; simp only [decStruct, pared_noEnum, pared_fields, h1, hne, and_false, if_false]; simp
theorem pared_decFields (e : Encoding) : ∀ (fs : Fields) (sm : List (Bytes × Int)) (seen : Bool) (vs : List Val),
    decFields e (paredFields e (paredTag e) (paredTag e) fs) sm seen vs = decFields e fs sm seen vs
  | .nil, sm, seen, vs => by simp only [paredFields, decFields]
  | .cons m t fs, sm, seen, [] => by simp only [paredFields, decFields]
  | .cons m t fs, sm, seen, v :: vs => by
    have h1 := fun o x => pared_decCore e t o x
    have h2 := fun sm seen vs => pared_decFields e fs sm seen vs
    have hs : (paredTag e m.tag).skip = m.tag.skip := by simp only [paredTag]; split <;> simp_all
    simp only [paredFields, decFields, hs, h2]
    split
    · rfl
    · rename_i hk
      have hk : m.tag.skip = false := by simpa using hk
      have hb : (paredTag e m.tag).binExt = m.tag.binExt := by simp [paredTag, hk]
      have he : extensionEnds { m with tag := paredTag e m.tag } = extensionEnds m := by simp [extensionEnds, hb]
      have hf := fun sm core => pared_decField e t (fieldOpt m sm) m.tag.coption rfl v core
      simp only [hb, he, pared_directLib, pared_recordSize e m hk, pared_fieldOpt e m hk, hf, h1, pared_decOpt]
theorem pared_decNth (e : Encoding) : ∀ (g h : FieldTag → FieldTag) (fs : Fields) (i : Nat) (vs : List Val),
    decNth e (paredFields e g h fs) i vs = decNth e fs i vs
  | _, _, .nil, i, vs => by simp only [paredFields]
  | _, _, .cons m t fs, i, [] => by cases i <;> simp only [paredFields, decNth]
  | _, _, .cons m t fs, 0, v :: vs => by
    simp only [paredFields, decNth, pared_decCore e t {} v]
  | _, h, .cons m t fs, i + 1, v :: vs => by
    simp only [paredFields, decNth, pared_decNth e h h fs i vs]
end

end Verif.Spec
