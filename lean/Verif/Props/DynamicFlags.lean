import Verif.Props.DynamicMore
/-!
# C94: C-options, both flags, and counters
-/
namespace Verif.Props
open Verif Verif.Spec

/-- A field that is encoded: exported, not skipped, and without `sizeof` and `binary_extension`. -/
structure IsOpen (m : FieldMeta) : Prop where
  noskip : m.tag.skip = false
  exported : m.exported = true
  nosizeof : m.tag.sizeOf = []
  noext : m.tag.binExt = false

/-- The flags of an interface field: each says whether the interface is nil, and the first that does is the last. -/
def flagsOf (e : Encoding) (m : FieldMeta) (s : Slot) : Bytes :=
  (if m.tag.option then flag e s.isSome else []) ++
  (if e = .borsh ∧ m.tag.coption = true ∧ (m.tag.option = true → s.isSome = true) then cflag s.isSome else [])

/-- C94: an interface field with any combination of flags. -/
theorem C94_flags {e : Encoding} (he : e.valid = true) (m : FieldMeta) (hm : IsOpen m) (s : Slot) (hs : NoNilLib s)
    (hv : ∀ l v, offered s = some (l, v) → LibEnc e l v) (cs : List Col) (hc : Tame cs)
    (hcs : EncodableFields e (writtenFields cs) [] (writtenVals cs)) :
    marshalCols e (.slot m s :: cs) =
      (.ok (), flagsOf e m s ++ behindFlag e m.tag.order s ++ wireFields e (writtenFields cs) [] (writtenVals cs)) := by
  have hrest := encFields_w he (writtenFields cs) [] (writtenVals cs) hcs
  rw [← encCols_written cs hc] at hrest
  have key : ∀ (w : EM Unit) (fl : Bytes), Writes e w fl →
      EWat e m.tag.order (w >>= fun _ => encSlot s >>= fun _ => encCols e cs [])
        (fl ++ behindFlag e m.tag.order s ++ wireFields e (writtenFields cs) [] (writtenVals cs)) := by
    intro w fl hw x h1 h2 h3
    obtain ⟨b1, hb1, e1⟩ := hw x h1 h2
    obtain ⟨b2, k, hb2, e2⟩ := (encSlot_w he m.tag.order s hs hv).seq hrest (x.push b1) h1 h2 h3
    refine ⟨b1 ++ b2, k, by simp [hb1, hb2], ?_⟩
    rw [M.bind_ok e1, e2]
    simp [Enc.left]
  have stop : ∀ (w : EM Unit) (fl : Bytes), Writes e w fl → s = none →
      EWat e m.tag.order (w >>= fun _ => encCols e cs [])
        (fl ++ behindFlag e m.tag.order s ++ wireFields e (writtenFields cs) [] (writtenVals cs)) := by
    intro w fl hw hn
    subst hn
    have : behindFlag e m.tag.order none = [] := rfl
    rw [this, List.append_nil]
    exact (hw.ew.at _).seq hrest
  have hco : ∀ b, Writes e (writeCOption b) (cflag b) := fun b => by
    unfold writeCOption cflag; rw [fixed_eq]; exact writeUint32_writes e _ .le
  have hw : EW e (encCols e (.slot m s :: cs) []) (flagsOf e m s ++ behindFlag e m.tag.order s ++
      wireFields e (writtenFields cs) [] (writtenVals cs)) := by
    simp only [encCols, hm.noskip, hm.exported, recordSize, hm.nosizeof, if_true, pure_bind', Bool.false_eq_true, if_false]
    refine EWat.set ?_
    unfold flagsOf encSlotFlags
    by_cases ho : m.tag.option = true
    · cases s with
      | none =>
        simp only [fieldOpt, ho, Option.isNone_none, and_self, if_true, bind_assoc'', pure_bind', Bool.false_eq_true, if_false,
          Option.isSome_none, true_implies, and_false, List.append_nil]
        have := stop _ _ (writeFlag_w he false) rfl
        simpa only [behindFlag, offered, List.append_nil] using this
      | some p =>
        by_cases hb : e = .borsh ∧ m.tag.coption = true
        · simp only [fieldOpt, ho, hb, Option.isNone_some, Bool.false_eq_true, and_false, if_false, if_true, bind_assoc'', pure_bind',
            Option.isSome_some, implies_true, and_self]
          have hq := key (writeFlag e true >>= fun _ => writeCOption true) _ (Writes.seq (writeFlag_w he true) (hco true))
          rw [bind_assoc''] at hq
          rw [hb.1] at hq
          exact hq
        · have hb' : ¬ (e = .borsh ∧ m.tag.coption = true ∧ (m.tag.option = true → (some p : Slot).isSome = true)) := fun h => hb ⟨h.1, h.2.1⟩
          simp only [if_neg hb']
          simp only [fieldOpt, ho, if_neg hb, Option.isNone_some, Bool.false_eq_true, and_false, if_false, if_true, bind_assoc'', pure_bind',
            Option.isSome_some, List.append_nil]
          exact key _ _ (writeFlag_w he true)
    · have ho' : m.tag.option = false := by simpa using ho
      by_cases hb : e = .borsh ∧ m.tag.coption = true
      · cases s with
        | none =>
          simp only [fieldOpt, ho', hb, Bool.false_eq_true, false_and, if_false, if_true, bind_assoc'', pure_bind', Option.isNone_none,
            false_implies, and_self, Option.isSome_none, List.nil_append]
          have := stop _ _ (hco false) rfl
          rw [hb.1] at this
          simpa only [behindFlag, offered, List.append_nil] using this
        | some p =>
          simp only [fieldOpt, ho', hb, Bool.false_eq_true, false_and, if_false, if_true, bind_assoc'', pure_bind', Option.isNone_some,
            false_implies, and_self, Option.isSome_some, List.nil_append]
          have := key _ _ (hco true)
          rw [hb.1] at this
          exact this
      · have hb' : ¬ (e = .borsh ∧ m.tag.coption = true ∧ (m.tag.option = true → s.isSome = true)) := fun h => hb ⟨h.1, h.2.1⟩
        simp only [if_neg hb']
        simp only [fieldOpt, ho', if_neg hb, Bool.false_eq_true, false_and, if_false, if_true, pure_bind', List.append_nil, List.nil_append]
        have := key (pure ()) [] Writes.pure
        simpa only [pure_bind', List.nil_append] using this
  obtain ⟨chunks, c, hb, hx⟩ := EWat.set (o := .le) (hw.at .le) (Enc.new e) rfl (fun _ _ => rfl)
  have hq : encodeCols (.slot m s :: cs) (Enc.new e) = (setCurE .le >>= fun _ => encCols e (.slot m s :: cs) []) (Enc.new e) := by
    simp only [encodeCols, M.bind_apply, M.get_apply, if_neg (show (Enc.new e).enc ≠ .other from new_ne he)]
    rfl
  unfold marshalCols
  rw [hq, hx, ← hb]
  simp [Enc.out, Enc.new]

theorem decode_open {e : Encoding} (he : e.valid = true) (m : FieldMeta) (hm : IsOpen m) (s r : Slot) (b bs : Bytes)
    (h : Gets e (decSlotField e (fieldOpt m []) s) bs r) : unmarshalCols e [.slot m s] (bs ++ b) = .ok [.slot m r] := by
  have hx : extensionEnds m = pure false := by unfold extensionEnds; rw [if_neg (by simp [hm.noext])]
  have hg : Gets e (decCols e [.slot m s] [] false) bs [.slot m r] := by
    simp only [decCols, hm.noskip, hm.exported, hm.noext, hx, recordSize, hm.nosizeof, if_true, pure_bind', Bool.false_eq_true,
      if_false, Bool.not_false, Bool.true_and, Bool.not_true, Bool.or_false]
    exact h.map (f := fun x => [Col.slot m x])
  obtain ⟨c, hc⟩ := hg { Dec.new (bs ++ b) e with cur := some .le } b rfl (Dec.new_ok (bs ++ b) e) (by simp [Dec.rest, Dec.new])
  unfold unmarshalCols
  simp only [decodeCols, setCurD, M.bind_apply, M.get_apply, if_neg (show (Dec.new (bs ++ b) e).enc ≠ .other from new_ne he), M.modify_apply]
  show (decCols e [.slot m s] [] false _).1 = _
  rw [hc]

theorem gets_set {e : Encoding} (o : Order) {r : DM Slot} {bs : Bytes} {a : Slot} (h : Gets e r bs a) : Gets e (setCurD o >>= fun _ => r) bs a := by
  intro d tail h1 h2 h3
  obtain ⟨c, hc⟩ := h { d with cur := some o } tail h1 h2 h3
  exact ⟨c, hc⟩

theorem decSlotField_both {m : FieldMeta} (hb : m.tag.coption = true) (ho : m.tag.option = true) (s : Slot) (hl : heldLib s = false) :
    decSlotField .borsh (fieldOpt m []) s = setCurD m.tag.order >>= fun _ => readFlag .borsh >>= fun p =>
      if p then readCOption >>= fun q => if q then decSlot .borsh (fieldOpt m []) s else pure (absentSlotBase s) else pure (absentSlot s) := by
  simp [decSlotField, fieldOpt, hb, ho, hl]

/-- C94, an absent C-option: the interface becomes nil. -/
theorem C94_coption_absent (m : FieldMeta) (hm : IsOpen m) (hb : m.tag.coption = true) (ho : m.tag.option = false) (s : Slot) (b : Bytes)
    (hs : ∀ t x, pointee s ≠ some (.ptr t, x)) :
    unmarshalCols .borsh [.slot m s] (cflag false ++ b) = .ok [.slot m none] := by
  refine decode_open rfl m hm s none b _ ?_
  have ha : absentSlot s = none := by
    unfold absentSlot
    split
    · exact absurd rfl (hs _ _)
    · rfl
  have hd : decSlotField .borsh (fieldOpt m []) s = setCurD m.tag.order >>= fun _ => readCOption >>= fun p =>
      if p then decSlot .borsh (fieldOpt m []) s else pure (absentSlot s) := by simp [decSlotField, fieldOpt, hb, ho]
  rw [hd, ha]
  refine gets_set _ ?_
  have := (Reads.gets (readCOption_r (e := .borsh) false)).bind
    (f := fun p => if p then decSlot .borsh (fieldOpt m []) s else pure none) (b2 := []) (b := none) (Reads.gets (Reads.pure none))
  simpa using this

/-- C94, a present C-option that holds a pointer to a library type. -/
theorem C94_coption_present (m : FieldMeta) (hm : IsOpen m) (hb : m.tag.coption = true) (ho : m.tag.option = false) (l : Lib)
    (hl : l ≠ .emptyVariant) (v old : Val) (h : LibEnc .borsh l v) (hr : LibRet .borsh l v) (b : Bytes) :
    unmarshalCols .borsh [.slot m (some (.ptr (.lib l), .ptr (some old)))] (cflag true ++ libWire .borsh l m.tag.order v ++ b) =
      .ok [.slot m (some (.ptr (.lib l), .ptr (some (copyLib v))))] := by
  refine decode_open rfl m hm _ _ b _ ?_
  have hd : decSlotField .borsh (fieldOpt m []) (some (.ptr (.lib l), .ptr (some old))) = setCurD m.tag.order >>= fun _ => readCOption >>= fun p =>
      if p then decSlot .borsh (fieldOpt m []) (some (.ptr (.lib l), .ptr (some old))) else pure none := by
    simp [decSlotField, fieldOpt, hb, ho, absentSlot]
  rw [hd]
  intro d tail h1 h2 h3
  have hr' : ({ d with cur := some m.tag.order } : Dec).rest = cflag true ++ (libWire .borsh l m.tag.order v ++ tail) := by
    rw [← List.append_assoc]; exact h3
  have hf := readCOption_r true { d with cur := some m.tag.order } _ h1 h2 hr'
  obtain ⟨c, hc⟩ := gets_slot (e := .borsh) rfl (fieldOpt m []) l hl v old h hr
    (Dec.adv { d with cur := some m.tag.order } (cflag true).length) tail h1 (Dec.adv_ok_append h2 hr') (Dec.adv_rest_append h2 hr')
  refine ⟨c, ?_⟩
  simp only [setCurD, M.bind_apply, M.modify_apply] at hc ⊢
  rw [hf]
  simp only [if_true]
  refine hc.trans ?_
  simp [Dec.to, Dec.adv, Int.add_assoc]
  rfl

/-- C94, both flags: when the first says "present" and the second does not, what the pointer points to becomes zero; without a pointer
the interface becomes nil. -/
theorem C94_both_absent (m : FieldMeta) (hm : IsOpen m) (hb : m.tag.coption = true) (ho : m.tag.option = true) (s : Slot) (b : Bytes)
    (hs : ∀ t x, pointee s = some (t, x) → (∀ u, t ≠ .ptr u) ∧ ∀ l, t ≠ .lib l) :
    unmarshalCols .borsh [.slot m s] (flag .borsh true ++ cflag false ++ b) =
      .ok [.slot m (match pointee s with | some (t, _) => some (.ptr t, .ptr (some t.zero)) | none => none)] := by
  refine decode_open rfl m hm s _ b _ ?_
  have hl : heldLib s = false := by
    unfold heldLib
    split
    · next t x =>
      obtain ⟨h1, h2⟩ := hs t x rfl
      cases t <;> first | rfl | exact absurd rfl (h1 _) | exact absurd rfl (h2 _)
    · rfl
  have ha : absentSlotBase s = match pointee s with | some (t, _) => some (.ptr t, .ptr (some t.zero)) | none => none := by
    unfold absentSlotBase pointee
    split
    · next t x =>
      obtain ⟨h1, -⟩ := hs t x rfl
      have : absentBase (.ptr t) = .ptr (some t.zero) := by
        cases t <;> first | exact absurd rfl (h1 _) | (unfold absentBase; rfl)
      simp only [this]
    · next hn =>
      split
      · next t x h =>
        split at h
        · exact (hn _ _ rfl).elim
        · cases h
      · rfl
  rw [decSlotField_both hb ho s hl, ha]
  refine gets_set _ ?_
  refine (Reads.gets (readFlag_r (e := .borsh) rfl true)).bind ?_
  rw [if_pos rfl]
  have := (Reads.gets (readCOption_r (e := .borsh) false)).bind
    (f := fun q => if q then decSlot .borsh (fieldOpt m []) s else pure (match pointee s with | some (t, _) => some (.ptr t, .ptr (some t.zero)) | none => none))
    (b2 := []) (Reads.gets (Reads.pure _))
  simpa using this

/-- C94, both flags on a pointer to a library type: once the first flag says "present", decoding panics, whatever follows. -/
theorem C94_both_library (m : FieldMeta) (hm : IsOpen m) (hb : m.tag.coption = true) (ho : m.tag.option = true) (l : Lib) (x : Val) (b : Bytes) :
    unmarshalCols .borsh [.slot m (some (.ptr (.lib l), .ptr (some x)))] (flag .borsh true ++ b) = .panic := by
  have hx : extensionEnds m = pure false := by unfold extensionEnds; rw [if_neg (by simp [hm.noext])]
  have hd : decSlotField .borsh (fieldOpt m []) (some (.ptr (.lib l), .ptr (some x))) = setCurD m.tag.order >>= fun _ => readFlag .borsh >>= fun p =>
      if p then M.panic else pure none := by
    simp [decSlotField, fieldOpt, hb, ho, heldLib, Ty.baseLib, absentSlot]
  have hf := readFlag_r (e := .borsh) rfl true { Dec.new (flag .borsh true ++ b) .borsh with cur := some m.tag.order } b rfl
    (Dec.new_ok (flag .borsh true ++ b) .borsh) (by simp [Dec.rest, Dec.new])
  unfold unmarshalCols
  simp only [decodeCols, setCurD, M.bind_apply, M.get_apply, if_neg (show (Dec.new (flag .borsh true ++ b) .borsh).enc ≠ .other from new_ne rfl), M.modify_apply]
  show (decCols .borsh _ [] false _).1 = _
  simp only [decCols, hm.noskip, hm.exported, hm.noext, hx, Bool.false_eq_true,
    if_false, Bool.not_false, Bool.true_and, Bool.not_true, Bool.or_false, pure_bind', hd, setCurD, M.bind_apply, M.modify_apply]
  rw [hf]
  rfl

/-- C94: the decoder too panics at a `sizeof` tag on such a field, after reading the field. -/
theorem C94_sizeof_decode {e : Encoding} (he : e.valid = true) (m : FieldMeta) (hm : IsPlain m) (hz : m.tag.sizeOf ≠ []) (s : Slot)
    (hs : pointee s = none) (cs : List Col) (b : Bytes) : unmarshalCols e (.slot m s :: cs) b = .panic := by
  have hx : extensionEnds m = pure false := by unfold extensionEnds; rw [if_neg (by simp [hm.noext])]
  have hd : decSlotField e (fieldOpt m []) s = setCurD m.tag.order >>= fun _ => pure s := by
    have : ∀ o, decSlot e o s = pure s := by
      intro o; unfold decSlot; split
      · cases hs
      · rfl
    simp [decSlotField, fieldOpt, hm.nooption, hm.nocoption, this]
  unfold unmarshalCols
  simp only [decodeCols, setCurD, M.bind_apply, M.get_apply, if_neg (show (Dec.new b e).enc ≠ .other from new_ne he), M.modify_apply]
  show (decCols e _ [] false _).1 = _
  simp only [decCols, hm.noskip, hm.exported, hm.noext, hx, Bool.false_eq_true, if_false, Bool.not_false, Bool.true_and, Bool.not_true,
    Bool.or_false, pure_bind', hd, bind_assoc'', recordSize, if_neg hz]
  rfl

/-! ### Examples -/

example : IsOpen { name := [88], tag := { option := true, coption := true } } := ⟨rfl, rfl, rfl, rfl⟩
example : marshalCols .borsh [.slot { name := [88], tag := { option := true, coption := true } } (some (.lib .bool, .bool true))] =
    (.ok (), [1, 1, 0, 0, 0, 1]) := rfl
example : marshalCols .borsh [.slot { name := [88], tag := { coption := true } } none] = (.ok (), [0, 0, 0, 0]) := rfl
example : unmarshalCols .borsh [.slot { name := [88], tag := { option := true, coption := true } } (some (.ptr .str, .ptr (some (.str [65]))))] [1, 0, 0, 0, 0] =
    .ok [.slot { name := [88], tag := { option := true, coption := true } } (some (.ptr .str, .ptr (some (.str []))))] := rfl
example : unmarshalCols .borsh [.slot { name := [88], tag := { option := true, coption := true } } (some (.ptr (.lib .bool), .ptr (some (.bool true))))]
    [1, 1, 0, 0, 0, 1] = .panic := rfl

end Verif.Props
