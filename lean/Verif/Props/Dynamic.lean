import Verif.Spec.Dynamic
import Verif.Props.Libs
import Verif.Props.Structs
/-!
# C94: variables, fields and elements of type `interface{}`
-/
namespace Verif.Props
open Verif Verif.Spec

theorem pure_bind' {σ α β : Type} (a : α) (f : α → M σ β) : (pure a >>= f) = f a := rfl

theorem bind_assoc'' {σ α β γ : Type} (m : M σ α) (f : α → M σ β) (g : β → M σ γ) :
    m >>= f >>= g = m >>= fun a => f a >>= g := by
  funext s
  simp only [M.bind_apply]
  generalize m s = r
  rcases r with ⟨_ | _ | _, d⟩ <;> rfl

theorem bind_congr'' {σ α β : Type} {m : M σ α} {f g : α → M σ β} (h : ∀ a, f a = g a) : m >>= f = m >>= g := by
  rw [funext h]

theorem offered_lib (l : Lib) (v : Val) : offered (some (.lib l, v)) = some (l, v) := rfl

/-- What the encoder does with the content is what it does with the field it sees. -/
theorem encSlot_written {e : Encoding} (o : Opt) : (s : Slot) → NoNilLib s → encSlot s = encCore e (written s).1 o (written s).2
  | none, _ => rfl
  | some (t, v), h => by
    cases t with
    | lib l => rfl
    | ptr t =>
      cases t with
      | lib l =>
        obtain ⟨x, rfl⟩ := h l v rfl
        rfl
      | _ => simp only [encSlot, written, offered, Ty.directLib, Ty.asLib, encCore]
    | _ => simp only [encSlot, written, offered, Ty.directLib, encCore]

theorem new_ne {e : Encoding} (he : e.valid = true) : e ≠ .other := by rintro rfl; cases he

/-- C94, encoding a variable: the bytes of the library type it holds, itself or behind a pointer, and nothing for anything else. -/
theorem C94_encode {e : Encoding} (he : e.valid = true) (s : Slot) (h : NoNilLib s) :
    marshalAny e s =
      match offered s with
      | some (l, v) => marshal e (.lib l) v
      | none => (.ok (), []) := by
  have hr : ∀ x : Enc, x.enc = e →
      encodeAny s x = encSlot s { x with cur := some .le } := by
    intro x hx
    simp only [encodeAny, setCurE, M.bind_apply, M.get_apply, M.modify_apply, if_neg (show x.enc ≠ .other by rw [hx]; exact new_ne he)]
  have hm : ∀ (l : Lib) (v : Val) (x : Enc), x.enc = e → encode (.lib l) v x = marshalLib l v { x with cur := some .le } := by
    intro l v x hx
    simp only [encode, setCurE, M.bind_apply, M.get_apply, M.modify_apply, encCore,
      if_neg (show x.enc ≠ .other by rw [hx]; exact new_ne he)]
  unfold marshalAny
  rw [hr _ rfl, encSlot_written (e := e) {} s h]
  cases ho : offered s with
  | none =>
    simp only [written, ho, encCore]
    rfl
  | some p =>
    obtain ⟨l, v⟩ := p
    simp only [written, ho, encCore, marshal, hm l v (Enc.new e) rfl]

/-- C94: a nil pointer to a library type panics, in Borsh as well, where as a field or as an argument of its own it is skipped
(`EmptyVariant` excepted, whose method has a pointer receiver). -/
theorem C94_nil_library {e : Encoding} (l : Lib) (hl : l ≠ .emptyVariant) :
    marshalAny e (some (.ptr (.lib l), .ptr none)) = (.panic, []) := by
  unfold marshalAny encodeAny
  simp only [setCurE, M.bind_apply, M.get_apply]
  by_cases h : (Enc.new e).enc = .other
  · rw [if_pos h]; rfl
  · rw [if_neg h]
    simp only [M.bind_apply, M.modify_apply, encSlot, Ty.directLib, Ty.asLib, if_neg hl]
    rfl

theorem decodeAny_eq (s : Slot) (d : Dec) (hd : d.enc ≠ .other) : decodeAny s d = decSlot d.enc {} s { d with cur := some .le } := by
  simp only [decodeAny, setCurD, M.bind_apply, M.get_apply, M.modify_apply, if_neg hd]

/-- C94, decoding a variable that holds a pointer: what it points to is decoded, exactly as if that pointer were passed to `Decode`. -/
theorem C94_decode_pointer {e : Encoding} (t : Ty) (x : Val) (cur : Option Order) (pre unread : Bytes) :
    decodeAny (some (.ptr t, .ptr (some x))) (decAt e cur pre unread) =
      match decode t x (decAt e cur pre unread) with
      | (.ok y, d) => (.ok (some (.ptr t, .ptr (some y))), d)
      | (.err r, d) => (.err r, d)
      | (.panic, d) => (.panic, d) := by
  by_cases h : e = .other
  · subst h; rfl
  · rw [decodeAny_eq _ _ h]
    simp only [decode, setCurD, M.bind_apply, M.get_apply, M.modify_apply, if_neg (show (decAt e cur pre unread).enc ≠ .other from h),
      decSlot, decCore, Val.deref]
    generalize decCore (decAt e cur pre unread).enc t {} x _ = r
    rcases r with ⟨_ | _ | _, d⟩ <;> rfl

/-- C94, decoding any other variable: it keeps its content, and no byte is read. -/
theorem C94_decode_kept {e : Encoding} (he : e.valid = true) (s : Slot) (h : pointee s = none) (cur : Option Order) (pre unread : Bytes) :
    decodeAny s (decAt e cur pre unread) = (.ok s, decAt e (some .le) pre unread) := by
  rw [decodeAny_eq _ _ (new_ne he)]
  unfold decSlot
  split
  · cases h
  · rfl

/-! ### Struct fields -/

theorem encCols_written {e : Encoding} : (cs : List Col) → Tame cs → ∀ sm,
    encCols e cs sm = encFields e (writtenFields cs) sm (writtenVals cs)
  | [], _, sm => rfl
  | .field m t v :: cs, h, sm => by
    have ih := encCols_written (e := e) cs fun m s hm => h m s (List.mem_cons_of_mem _ hm)
    simp only [encCols, writtenFields, writtenVals, encFields, ih]
  | .slot m s :: cs, h, sm => by
    have ih := encCols_written (e := e) cs fun m s hm => h m s (List.mem_cons_of_mem _ hm)
    obtain ⟨hu, hn⟩ := h m s (List.mem_cons_self ..)
    have hf : encSlotFlags e (fieldOpt m sm) s = pure true := by
      simp [encSlotFlags, fieldOpt, hu.option, hu.coption, pure_bind']
    have hg : encFlags e (written s).1 (fieldOpt m sm) (written s).2 = pure true := by
      simp [encFlags, fieldOpt, hu.option, hu.coption, pure_bind']
    simp only [encCols, writtenFields, writtenVals, encFields, ih, recordSize, hu.sizeOf, if_true, pure_bind', hf, hg,
      ← encSlot_written (e := e) (fieldOpt m sm) s hn]

/-- C94, encoding a struct: a field of type `interface{}` contributes what a field of the library type it holds would, and otherwise
what a nil interface does, namely nothing. -/
theorem C94_encode_fields {e : Encoding} (cs : List Col) (h : Tame cs)
    (hn : ¬ (e = .borsh ∧ (writtenFields cs).isEnum = true)) :
    marshalCols e cs = marshal e (.struct (writtenFields cs)) (.struct (writtenVals cs)) := by
  have hs : encodeCols cs (Enc.new e) = encode (.struct (writtenFields cs)) (.struct (writtenVals cs)) (Enc.new e) := by
    simp only [encodeCols, encode, setCurE, M.bind_apply, M.get_apply]
    split
    · rfl
    · simp only [M.bind_apply, M.modify_apply, encCore, encStruct, encCols_written cs h, if_neg (show ¬ ((Enc.new e).enc = .borsh ∧ _) from hn)]
  unfold marshalCols marshal
  rw [hs]

theorem decCols_read {e : Encoding} : (cs : List Col) → (∀ m s, Col.slot m s ∈ cs → Unflagged m) → ∀ sm seen,
    decCols e cs sm seen = decFields e (readFields cs) sm seen (readVals cs) >>= fun vs => pure (refill cs vs)
  | [], _, sm, seen => rfl
  | .field m t v :: cs, h, sm, seen => by
    have ih := decCols_read (e := e) cs fun m s hm => h m s (List.mem_cons_of_mem _ hm)
    simp only [decCols, readFields, readVals, decFields, ih]
    by_cases hs : m.tag.skip = true
    · simp only [if_pos hs, bind_assoc'', pure_bind', refill]
    · simp only [if_neg hs]
      split
      · rfl
      · refine Eq.trans (bind_congr'' fun a => ?_) (bind_assoc'' _ _ _).symm
        split
        · simp only [bind_assoc'', pure_bind', refill]
        · rcases (if e = .borsh then t.directLib else none) with _ | ⟨l, p⟩ <;> simp only [bind_assoc'', pure_bind', refill]
  | .slot m s :: cs, h, sm, seen => by
    have ih := decCols_read (e := e) cs fun m s hm => h m s (List.mem_cons_of_mem _ hm)
    have hu := h m s (List.mem_cons_self ..)
    cases hp : pointee s with
    | none =>
      have hd : decSlotField e (fieldOpt m sm) s = setCurD m.tag.order >>= fun _ => pure s := by
        have : ∀ o, decSlot e o s = pure s := by
          intro o; unfold decSlot; split
          · cases hp
          · rfl
        simp [decSlotField, fieldOpt, hu.option, hu.coption, this]
      simp only [decCols, readFields, readVals, decFields, ih, hp, hd, Ty.directLib]
      by_cases hs : m.tag.skip = true
      · simp only [if_pos hs, bind_assoc'', pure_bind', refill, hp]
      · simp only [if_neg hs]
        split
        · rfl
        · refine Eq.trans (bind_congr'' fun a => ?_) (bind_assoc'' _ _ _).symm
          split
          · simp only [bind_assoc'', pure_bind', refill, hp]
          · have hm : (if e = .borsh then (none : Option (Lib × Bool)) else none) = none := by split <;> rfl
            simp [hm, decField, fieldOpt, hu.option, hu.coption, bind_assoc'', pure_bind', refill, hp, decCore, recordSize, hu.sizeOf]
    | some p =>
      obtain ⟨t, x⟩ := p
      have hs' : s = some (.ptr t, .ptr (some x)) := by
        unfold pointee at hp
        split at hp
        · cases hp; rfl
        · cases hp
      subst hs'
      simp only [decCols, readFields, readVals, decFields, ih, pointee]
      by_cases hs : m.tag.skip = true
      · simp only [if_pos hs, bind_assoc'', pure_bind', refill, pointee]
      · simp only [if_neg hs]
        split
        · rfl
        · refine Eq.trans (bind_congr'' fun a => ?_) (bind_assoc'' _ _ _).symm
          split
          · simp only [bind_assoc'', pure_bind', refill, pointee]
          · have hm : (if e = .borsh then (Ty.ptr (.ptr t)).directLib else none) = none := by split <;> rfl
            simp [hm, decField, decSlotField, decSlot, fieldOpt, hu.option, hu.coption, bind_assoc'', pure_bind', refill, pointee, decCore, recordSize,
              hu.sizeOf, Val.deref]

/-- C94, decoding a struct: a field of type `interface{}` that holds a pointer is decoded like a pointer to that pointer; any other is
passed over, and keeps its content. -/
theorem C94_decode_fields {e : Encoding} (cs : List Col) (h : ∀ m s, Col.slot m s ∈ cs → Unflagged m)
    (hn : ¬ (e = .borsh ∧ (readFields cs).isEnum = true)) (b : Bytes) :
    unmarshalCols e cs b =
      match unmarshal e (.struct (readFields cs)) (.struct (readVals cs)) b with
      | .ok (.struct vs) => .ok (refill cs vs)
      | .ok _ => .panic
      | .err r => .err r
      | .panic => .panic := by
  unfold unmarshalCols unmarshal
  simp only [decodeCols, decode, setCurD, M.bind_apply, M.get_apply]
  split
  · rfl
  · simp only [M.bind_apply, M.modify_apply, decCore, decStruct, decCols_read cs h, Val.fields,
      if_neg (show ¬ ((Dec.new b e).enc = .borsh ∧ _) from hn)]
    generalize decFields _ _ _ _ _ _ = r
    rcases r with ⟨_ | _ | _, d⟩ <;> rfl

end Verif.Props
