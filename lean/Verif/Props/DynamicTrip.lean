import Verif.Props.Dynamic
/-!
# C94: what comes back from variables of type `interface{}`
-/
namespace Verif.Props
open Verif Verif.Spec

/-- The read turns `bs` into `a` and stops right behind, whatever the field option is before and after. -/
def Gets {α : Type} (e : Encoding) (r : DM α) (bs : Bytes) (a : α) : Prop :=
  ∀ (d : Dec) (tail : Bytes), d.enc = e → d.Ok → d.rest = bs ++ tail → ∃ c, r d = (.ok a, d.to bs.length c)

theorem Gets.bind {α β : Type} {e : Encoding} {r : DM α} {f : α → DM β} {b1 b2 a b} (h1 : Gets e r b1 a) (h2 : Gets e (f a) b2 b) :
    Gets e (r >>= f) (b1 ++ b2) b := by
  intro d tail he ho hr
  have hr' : d.rest = b1 ++ (b2 ++ tail) := by rw [hr, List.append_assoc]
  obtain ⟨c, hc⟩ := h1 d _ he ho hr'
  obtain ⟨c', hc'⟩ := h2 (d.to b1.length c) tail he (Dec.to_ok (Dec.adv_ok_append ho hr'))
    (by rw [Dec.to_rest]; exact Dec.adv_rest_append ho hr')
  exact ⟨c', by rw [M.bind_ok hc, hc', Dec.to_to]; simp⟩

theorem Gets.map {α β : Type} {e : Encoding} {r : DM α} {f : α → β} {bs a} (h : Gets e r bs a) :
    Gets e (r >>= fun x => pure (f x)) bs (f a) := by
  intro d tail he ho hr
  obtain ⟨c, hc⟩ := h d tail he ho hr
  exact ⟨c, by rw [M.bind_ok hc]; rfl⟩

theorem Reads.gets {α : Type} {e : Encoding} {r : DM α} {bs a} (h : Reads e r bs a) : Gets e r bs a :=
  fun d tail h1 h2 h3 => ⟨d.cur, h d tail h1 h2 h3⟩

theorem gets_slot {e : Encoding} (he : e.valid = true) (o : Opt) (l : Lib) (hl : l ≠ .emptyVariant) (v old : Val) (h : LibEnc e l v)
    (hr : LibRet e l v) :
    Gets e (setCurD o.order >>= fun _ => decSlot e o (some (.ptr (.lib l), .ptr (some old)))) (libWire e l o.order v)
      (some (.ptr (.lib l), .ptr (some (copyLib v)))) := by
  intro d tail h1 h2 h3
  have hlo : LibOrder l (some o.order) old.endianness o.order := by cases l <;> simp [LibOrder]
  have hu : unmarshalLib l old { d with cur := some o.order } =
      (.ok (copyLib v), Dec.adv { d with cur := some o.order } (libWire e l o.order v).length) := by
    rw [unmarshalLib_at he l o.order v old h hr (some o.order) hlo { d with cur := some o.order } tail h1 h2 h3 rfl]
    cases l <;> first | rfl | exact absurd rfl hl
  refine ⟨some o.order, ?_⟩
  simp only [setCurD, M.bind_apply, M.modify_apply, decSlot, decCore, Val.deref, hu]
  rfl

/-- C94, what holds: a pointer to a library type comes back, into any pointer of that type that the destination holds. -/
theorem C94_roundtrip_partial {e : Encoding} (he : e.valid = true) (l : Lib) (hl : l ≠ .emptyVariant) (v old : Val)
    (h : LibEnc e l v) (hr : LibRet e l v) (tail : Bytes) :
    (marshalAny e (some (.ptr (.lib l), .ptr (some v)))).1 = .ok () ∧
    unmarshalAny e (some (.ptr (.lib l), .ptr (some old))) ((marshalAny e (some (.ptr (.lib l), .ptr (some v)))).2 ++ tail) =
      .ok (some (.ptr (.lib l), .ptr (some (copyLib v)))) := by
  have hm : marshalAny e (some (.ptr (.lib l), .ptr (some v))) = (.ok (), libWire e l .le v) := by
    rw [C94_encode he _ (by intro l' v' h'; cases h'; exact ⟨_, rfl⟩)]
    simp only [offered]
    rw [marshal_wire he (.lib l) v (by simpa only [Encodable] using h)]
    simp only [wire]
  rw [hm]
  refine ⟨rfl, ?_⟩
  obtain ⟨c, hc⟩ := gets_slot he {} l hl v old h hr (Dec.new (libWire e l .le v ++ tail) e) tail rfl (Dec.new_ok _ _) (by simp [Dec.rest, Dec.new])
  have hne : (Dec.new (libWire e l .le v ++ tail) e).enc ≠ .other := new_ne he
  simp only [setCurD, M.bind_apply, M.modify_apply] at hc
  unfold unmarshalAny
  rw [decodeAny_eq _ _ hne]
  show (decSlot e {} _ _).1 = _
  rw [hc]

/-- Structs of interface fields that hold pointers to library types; the destination holds pointers to the same types. -/
inductive Pointers (e : Encoding) : List Col → List Col → List Col → Prop where
  | nil : Pointers e [] [] []
  | cons (m : FieldMeta) (hm : IsPlain m) (hz : m.tag.sizeOf = []) (l : Lib) (hl : l ≠ .emptyVariant) (v old : Val) (h : LibEnc e l v) (hr : LibRet e l v)
      {cs ds rs : List Col} (hs : Pointers e cs ds rs) :
      Pointers e (.slot m (some (.ptr (.lib l), .ptr (some v))) :: cs) (.slot m (some (.ptr (.lib l), .ptr (some old))) :: ds)
        (.slot m (some (.ptr (.lib l), .ptr (some (copyLib v)))) :: rs)

/-- The bytes of such a struct. -/
def pointersWire (e : Encoding) : List Col → Bytes
  | .slot m (some (.ptr (.lib l), .ptr (some v))) :: cs => libWire e l m.tag.order v ++ pointersWire e cs
  | _ => []

theorem pointers_trip {e : Encoding} (he : e.valid = true) {cs ds rs : List Col} (h : Pointers e cs ds rs) :
    EW e (encCols e cs []) (pointersWire e cs) ∧ Gets e (decCols e ds [] false) (pointersWire e cs) rs := by
  induction h with
  | nil => exact ⟨EW.pure, Reads.gets (Reads.pure [])⟩
  | @cons m hm hz l hl v old h hr cs ds rs _ ih =>
    obtain ⟨i1, i2⟩ := ih
    constructor
    · simp only [encCols, hm.noskip, hm.exported, recordSize, hz, if_true, pure_bind', pointersWire, Bool.false_eq_true, if_false]
      have hf : encSlotFlags e (fieldOpt m []) (some (.ptr (.lib l), .ptr (some v))) = pure true := by
        simp [encSlotFlags, fieldOpt, hm.nooption, hm.nocoption, pure_bind']
      simp only [hf, pure_bind', if_true, encSlot, Ty.directLib, Ty.asLib]
      exact EWat.set ((marshalLib_w he l m.tag.order v h).seq i1)
    · have hx : extensionEnds m = pure false := by unfold extensionEnds; rw [if_neg (by simp [hm.noext])]
      have hd : decSlotField e (fieldOpt m []) (some (.ptr (.lib l), .ptr (some old))) =
          setCurD (fieldOpt m []).order >>= fun _ => decSlot e (fieldOpt m []) (some (.ptr (.lib l), .ptr (some old))) := by
        simp [decSlotField, fieldOpt, hm.nooption, hm.nocoption]
      simp only [decCols, hm.noskip, hm.exported, hm.noext, hx, recordSize, hz, if_true, pure_bind', pointersWire, Bool.false_eq_true,
        if_false, Bool.not_false, Bool.true_and, Bool.not_true, Bool.or_false, hd]
      refine (gets_slot he (fieldOpt m []) l hl v old h hr).bind ?_
      exact i2.map (f := fun rest => Col.slot m _ :: rest)

/-- C94, what holds for structs: interface fields that hold pointers to library types come back, in every byte order. -/
theorem C94_roundtrip_fields_partial {e : Encoding} (he : e.valid = true) {cs ds rs : List Col} (h : Pointers e cs ds rs) (tail : Bytes) :
    marshalCols e cs = (.ok (), pointersWire e cs) ∧ unmarshalCols e ds (pointersWire e cs ++ tail) = .ok rs := by
  obtain ⟨h1, h2⟩ := pointers_trip he h
  constructor
  · have := EWat.set (o := .le) (h1.at .le)
    obtain ⟨chunks, c, hb, hw⟩ := this (Enc.new e) rfl (fun _ _ => rfl)
    have hs : encodeCols cs (Enc.new e) = (setCurE .le >>= fun _ => encCols e cs []) (Enc.new e) := by
      simp only [encodeCols, M.bind_apply, M.get_apply, if_neg (show (Enc.new e).enc ≠ .other from new_ne he)]
      rfl
    unfold marshalCols
    rw [hs, hw, ← hb]
    simp [Enc.out, Enc.new]
  · obtain ⟨c, hc⟩ := h2 { Dec.new (pointersWire e cs ++ tail) e with cur := some .le } tail rfl (Dec.new_ok (pointersWire e cs ++ tail) e) (by simp [Dec.rest, Dec.new])
    unfold unmarshalCols
    simp only [decodeCols, setCurD, M.bind_apply, M.get_apply, if_neg (show (Dec.new (pointersWire e cs ++ tail) e).enc ≠ .other from new_ne he),
      M.modify_apply]
    show (decCols e ds [] false _).1 = _
    rw [hc]

end Verif.Props
