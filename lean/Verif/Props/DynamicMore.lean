import Verif.Props.DynamicTrip
/-!
# C94: flags, slices, and what does not come back
-/
namespace Verif.Props
open Verif Verif.Spec

/-! ### Optional fields -/

/-- What an interface holds behind the flag. -/
def behindFlag (e : Encoding) (o : Order) (s : Slot) : Bytes :=
  match offered s with
  | some (l, v) => libWire e l o v
  | none => []

theorem encSlot_w {e : Encoding} (he : e.valid = true) (o : Order) (s : Slot) (hs : NoNilLib s)
    (hv : ∀ l v, offered s = some (l, v) → LibEnc e l v) : EWat e o (encSlot s) (behindFlag e o s) := by
  rw [encSlot_written (e := e) {} s hs]
  unfold behindFlag written
  cases ho : offered s with
  | none => exact EW.pure.at o
  | some p =>
    obtain ⟨l, v⟩ := p
    simp only [encCore]
    exact marshalLib_w he l o v (hv l v ho)

/-- C94, an optional field of type `interface{}`: the flag says whether the interface is nil — even if nothing follows it. -/
theorem C94_optional {e : Encoding} (he : e.valid = true) (m : FieldMeta) (hm : IsOptional m) (s : Slot) (hs : NoNilLib s)
    (hv : ∀ l v, offered s = some (l, v) → LibEnc e l v) (cs : List Col) (hc : Tame cs)
    (hcs : EncodableFields e (writtenFields cs) [] (writtenVals cs)) :
    marshalCols e (.slot m s :: cs) =
      (.ok (), flag e s.isSome ++ behindFlag e m.tag.order s ++ wireFields e (writtenFields cs) [] (writtenVals cs)) := by
  have hw : EW e (encCols e (.slot m s :: cs) []) (flag e s.isSome ++ behindFlag e m.tag.order s ++
      wireFields e (writtenFields cs) [] (writtenVals cs)) := by
    have hrest := encFields_w he (writtenFields cs) [] (writtenVals cs) hcs
    rw [← encCols_written cs hc] at hrest
    simp only [encCols, hm.noskip, hm.exported, recordSize, hm.nosizeof, if_true, pure_bind', Bool.false_eq_true, if_false]
    refine EWat.set ?_
    cases s with
    | none =>
      have hf : encSlotFlags e (fieldOpt m []) none = writeFlag e false >>= fun _ => pure false := by
        simp [encSlotFlags, fieldOpt, hm.option]
      simp only [hf, bind_assoc'', pure_bind', Bool.false_eq_true, if_false, behindFlag, offered, List.append_nil]
      exact EWat.seq ((writeFlag_w he false).ew.at _) hrest
    | some p =>
      have hf : encSlotFlags e (fieldOpt m []) (some p) = writeFlag e true >>= fun _ => pure true := by
        simp [encSlotFlags, fieldOpt, hm.option, hm.nocoption]
      simp only [hf, bind_assoc'', pure_bind', if_true]
      intro x h1 h2 h3
      obtain ⟨b1, hb1, e1⟩ := writeFlag_w he true x h1 h2
      obtain ⟨b2, k, hb2, e2⟩ := (encSlot_w he m.tag.order (some p) hs hv).seq hrest (x.push b1) h1 h2 h3
      refine ⟨b1 ++ b2, k, by simp [hb1, hb2], ?_⟩
      rw [M.bind_ok e1, e2]
      simp [Enc.left]
  obtain ⟨chunks, c, hb, hx⟩ := EWat.set (o := .le) (hw.at .le) (Enc.new e) rfl (fun _ _ => rfl)
  have hq : encodeCols (.slot m s :: cs) (Enc.new e) = (setCurE .le >>= fun _ => encCols e (.slot m s :: cs) []) (Enc.new e) := by
    simp only [encodeCols, M.bind_apply, M.get_apply, if_neg (show (Enc.new e).enc ≠ .other from new_ne he)]
    rfl
  unfold marshalCols
  rw [hq, hx, ← hb]
  simp [Enc.out, Enc.new]

/-- Reading one optional field. -/
theorem decode_optional {e : Encoding} (he : e.valid = true) (m : FieldMeta) (hm : IsOptional m) (s r : Slot) (b bs : Bytes)
    (h : Gets e (setCurD m.tag.order >>= fun _ => readFlag e >>= fun p => if p then decSlot e (fieldOpt m []) s else pure (absentSlot s)) bs r) :
    unmarshalCols e [.slot m s] (bs ++ b) = .ok [.slot m r] := by
  have hx : extensionEnds m = pure false := by unfold extensionEnds; rw [if_neg (by simp [hm.noext])]
  have hd : decSlotField e (fieldOpt m []) s =
      setCurD m.tag.order >>= fun _ => readFlag e >>= fun p => if p then decSlot e (fieldOpt m []) s else pure (absentSlot s) := by
    simp [decSlotField, fieldOpt, hm.option, hm.nocoption]
  have hg : Gets e (decCols e [.slot m s] [] false) bs [.slot m r] := by
    simp only [decCols, hm.noskip, hm.exported, hm.noext, hx, recordSize, hm.nosizeof, if_true, pure_bind', Bool.false_eq_true,
      if_false, Bool.not_false, Bool.true_and, Bool.not_true, Bool.or_false, hd]
    exact h.map (f := fun x => [Col.slot m x])
  obtain ⟨c, hc⟩ := hg { Dec.new (bs ++ b) e with cur := some .le } b rfl (Dec.new_ok (bs ++ b) e) (by simp [Dec.rest, Dec.new])
  unfold unmarshalCols
  simp only [decodeCols, setCurD, M.bind_apply, M.get_apply, if_neg (show (Dec.new (bs ++ b) e).enc ≠ .other from new_ne he), M.modify_apply]
  show (decCols e [.slot m s] [] false _).1 = _
  rw [hc]

theorem gets_flag {e : Encoding} (he : e.valid = true) (o : Order) (p : Bool) {f : Bool → DM Slot} {bs : Bytes} {r : Slot}
    (h : ∀ (d : Dec) (tail : Bytes), d.enc = e → d.Ok → d.cur = some o → d.rest = bs ++ tail → ∃ c, f p d = (.ok r, d.to bs.length c)) :
    Gets e (setCurD o >>= fun _ => readFlag e >>= f) (flag e p ++ bs) r := by
  intro d tail h1 h2 h3
  have hr' : ({ d with cur := some o } : Dec).rest = flag e p ++ (bs ++ tail) := by rw [← List.append_assoc]; exact h3
  have hf := readFlag_r he p { d with cur := some o } _ h1 h2 hr'
  obtain ⟨c, hc⟩ := h (Dec.adv { d with cur := some o } (flag e p).length) tail h1 (Dec.adv_ok_append h2 hr') rfl (Dec.adv_rest_append h2 hr')
  refine ⟨c, ?_⟩
  simp only [setCurD, M.bind_apply, M.modify_apply, hf, hc]
  simp [Dec.to, Dec.adv, Int.add_assoc]

/-- C94, an absent optional field: the interface becomes nil, unless it holds a pointer to a pointer: then only that inner pointer does. -/
theorem C94_absent {e : Encoding} (he : e.valid = true) (m : FieldMeta) (hm : IsOptional m) (s : Slot) (b : Bytes) :
    (∀ t x, pointee s ≠ some (.ptr t, x)) → unmarshalCols e [.slot m s] (flag e false ++ b) = .ok [.slot m none] := by
  intro hs
  refine decode_optional he m hm s none b _ ?_
  have : absentSlot s = none := by
    unfold absentSlot
    split
    · exact absurd rfl (hs _ _)
    · rfl
  have := gets_flag he m.tag.order false (bs := []) (r := none)
    (f := fun p => if p then decSlot e (fieldOpt m []) s else pure (absentSlot s))
    (fun d tail _ _ _ _ => ⟨d.cur, by simp [this, Dec.to, Dec.adv]⟩)
  simpa using this

theorem C94_absent_inner {e : Encoding} (he : e.valid = true) (m : FieldMeta) (hm : IsOptional m) (t : Ty) (ht : ∀ u, t ≠ .ptr u) (p : Val) (b : Bytes) :
    unmarshalCols e [.slot m (some (.ptr (.ptr t), .ptr (some p)))] (flag e false ++ b) =
      .ok [.slot m (some (.ptr (.ptr t), .ptr (some (.ptr none))))] := by
  refine decode_optional he m hm _ _ b _ ?_
  have ha : absentSlot (some (.ptr (.ptr t), .ptr (some p))) = some (.ptr (.ptr t), .ptr (some (.ptr none))) := by
    have : absentVal (.ptr t) p = .ptr none := by
      cases t <;> first | exact absurd rfl (ht _) | (unfold absentVal; rfl)
    simp only [absentSlot, absentVal, this]
  have := gets_flag he m.tag.order false (bs := []) (r := some (.ptr (.ptr t), .ptr (some (.ptr none))))
    (f := fun q => if q then decSlot e (fieldOpt m []) (some (.ptr (.ptr t), .ptr (some p))) else pure (absentSlot (some (.ptr (.ptr t), .ptr (some p)))))
    (fun d tail _ _ _ _ => ⟨d.cur, by simp [ha, Dec.to, Dec.adv]⟩)
  simpa using this

/-- C94, a present optional field that holds a pointer to a library type: the value behind the flag. -/
theorem C94_present {e : Encoding} (he : e.valid = true) (m : FieldMeta) (hm : IsOptional m) (l : Lib) (hl : l ≠ .emptyVariant) (v old : Val)
    (h : LibEnc e l v) (hr : LibRet e l v) (b : Bytes) :
    unmarshalCols e [.slot m (some (.ptr (.lib l), .ptr (some old)))] (flag e true ++ libWire e l m.tag.order v ++ b) =
      .ok [.slot m (some (.ptr (.lib l), .ptr (some (copyLib v))))] := by
  refine decode_optional he m hm _ _ b _ ?_
  refine gets_flag he m.tag.order true fun d tail h1 h2 h3 h4 => ?_
  obtain ⟨c, hc⟩ := gets_slot he (fieldOpt m []) l hl v old h hr d tail h1 h2 h4
  refine ⟨c, ?_⟩
  rw [if_pos rfl]
  simp only [setCurD, M.bind_apply, M.modify_apply] at hc
  have hd : ({ d with cur := some (fieldOpt m []).order } : Dec) = d := by
    rcases d with ⟨a, b, c, e'⟩
    simp only at h3
    subst h3
    rfl
  rw [hd] at hc
  exact hc

/-- C94: a field of type `interface{}` cannot announce the length of another one. -/
theorem C94_sizeof {e : Encoding} (m : FieldMeta) (hs : m.tag.skip = false) (hz : m.tag.sizeOf ≠ []) (s : Slot) (cs : List Col) :
    (marshalCols e (.slot m s :: cs)).1 = .panic := by
  simp only [marshalCols, encodeCols, setCurE, M.bind_apply, M.get_apply]
  split
  · rfl
  · simp only [M.bind_apply, M.modify_apply, encCols, hs, Bool.false_eq_true, if_false, recordSize, if_neg hz]
    rfl

/-! ### Slices -/

theorem slotsWire_flatMap {e : Encoding} (xs : List Slot) : slotsWire e xs = xs.flatMap (behindFlag e .le) := by
  induction xs with
  | nil => rfl
  | cons x xs ih => simp only [slotsWire, List.flatMap_cons, ih]; rfl

/-- C94, encoding a `[]interface{}`: the number of elements, then the bytes of those that hold library types. -/
theorem C94_slice {e : Encoding} (he : e.valid = true) (xs : List Slot) (hx : ∀ s ∈ xs, NoNilLib s)
    (hv : ∀ s ∈ xs, ∀ l v, offered s = some (l, v) → LibEnc e l v) (hn : xs.length ≤ maxLen e) :
    marshalSlots e xs = (.ok (), lenPrefix e xs.length ++ slotsWire e xs) := by
  have hw : EW e (setCurE .le >>= fun _ => writeSeqLen e xs.length >>= fun _ =>
      forIndexM (fun x => setCurE .le >>= fun _ => encSlot x) xs.length xs) (lenPrefix e xs.length ++ slotsWire e xs) := by
    rw [slotsWire_flatMap]
    exact EWat.set (EW.at ((writeSeqLen_w he _ hn).seq
      (EW.forIndex xs fun x hm => EWat.set (encSlot_w he .le x (hx x hm) (hv x hm)))) _)
  obtain ⟨chunks, c, hb, hy⟩ := hw (Enc.new e) rfl (fun _ _ => rfl)
  have hq : encodeSlots xs (Enc.new e) = (setCurE .le >>= fun _ => writeSeqLen e xs.length >>= fun _ =>
      forIndexM (fun x => setCurE .le >>= fun _ => encSlot x) xs.length xs) (Enc.new e) := by
    simp only [encodeSlots, M.bind_apply, M.get_apply, if_neg (show (Enc.new e).enc ≠ .other from new_ne he)]
    rfl
  unfold marshalSlots
  rw [hq, hy, ← hb]
  simp [Enc.out, Enc.new]

theorem repeat_none {e : Encoding} (n : Nat) : ∀ d : Dec, ∃ d', repeatM (setCurD .le >>= fun _ => decSlot e {} none) n d = (.ok (List.replicate n none), d') := by
  induction n with
  | zero => intro d; exact ⟨d, rfl⟩
  | succ n ih =>
    intro d
    obtain ⟨d', h⟩ := ih { d with cur := some .le }
    refine ⟨d', ?_⟩
    have : (setCurD .le >>= fun _ => decSlot e {} none) d = (.ok none, { d with cur := some .le }) := rfl
    simp only [repeatM, M.bind_ok this, M.bind_ok h]
    rfl

/-- C94, decoding a `[]interface{}`: as many nil interfaces as announced, if at least that many bytes are left; none of them is read. -/
theorem C94_slice_decode {e : Encoding} (he : e.valid = true) (n : Nat) (hn : n ≤ readMax e) (old : Option (List Slot)) (b : Bytes) :
    unmarshalSlots e old (lenPrefix e n ++ b) =
      if e = .borsh ∧ n = 0 then .ok old
      else if n ≤ b.length then .ok (some (List.replicate n none))
      else .err .eof := by
  have hr := readSeqLen_r he n hn { Dec.new (lenPrefix e n ++ b) e with cur := some .le } b rfl (Dec.new_ok (lenPrefix e n ++ b) e)
    (by simp [Dec.rest, Dec.new])
  simp only [unmarshalSlots, decodeSlots, setCurD, M.bind_apply, M.get_apply,
    if_neg (show (Dec.new (lenPrefix e n ++ b) e).enc ≠ .other from new_ne he), M.modify_apply]
  simp only [show (Dec.new (lenPrefix e n ++ b) e).enc = e from rfl] at hr ⊢
  rw [hr]
  simp only []
  by_cases hz : e = .borsh ∧ n = 0
  · rw [if_pos hz, if_pos hz]; rfl
  · rw [if_neg hz, if_neg hz]
    simp only [M.bind_apply, M.get_apply]
    have hrem : (Dec.adv { Dec.new (lenPrefix e n ++ b) e with cur := some .le } (lenPrefix e n).length).remaining = (b.length : Int) := by
      simp [Dec.remaining, Dec.adv, Dec.new]
      omega
    simp only [show (Dec.new (lenPrefix e n ++ b) e).enc = e from rfl] at hrem
    rw [hrem]
    by_cases hb : n ≤ b.length
    · rw [if_pos hb, if_neg (by omega)]
      obtain ⟨d', hd⟩ := repeat_none (e := e) n (Dec.adv { Dec.new (lenPrefix e n ++ b) e with cur := some .le } (lenPrefix e n).length)
      have := M.bind_ok (f := fun xs => (pure (some xs) : DM (Option (List Slot)))) hd
      exact congrArg Prod.fst this
    · rw [if_neg hb, if_pos (by omega)]
      rfl

/-! ### What does not come back -/

/-- C94 is false in full: a pointer to a `uint8` writes nothing, and reading it back fails; a `Uint64` that is not behind a pointer is
written, and not read; a slice of one nil interface cannot be read back, and one that holds a `Uint64` comes back with nil. -/
theorem C94_violated :
    (∀ n, marshalAny .bin (some (.ptr (.uint .w8 false), .ptr (some (.uint n)))) = (.ok (), [])) ∧
    (∀ n, ∃ r, unmarshalAny .bin (some (.ptr (.uint .w8 false), .ptr (some (.uint n)))) [] = .err r) ∧
    (∃ b, marshalAny .bin (some (.lib .uint64, .uint 7)) = (.ok (), b) ∧
      unmarshalAny .bin (some (.lib .uint64, .uint 0)) b = .ok (some (.lib .uint64, .uint 0))) ∧
    (∃ b, marshalSlots .bin [none] = (.ok (), b) ∧ unmarshalSlots .bin none b = .err .eof) ∧
    (∃ b, marshalSlots .bin [some (.lib .uint64, .uint 7)] = (.ok (), b) ∧ unmarshalSlots .bin none b = .ok (some [none])) :=
  ⟨fun _ => rfl, fun _ => ⟨_, rfl⟩, ⟨_, rfl, rfl⟩, ⟨_, rfl, rfl⟩, ⟨_, rfl, rfl⟩⟩

/-! ### Examples -/

/-- `type T struct { A uint8; X interface{}; B uint8 }`; a `*Uint64` in `X` is written, a `*uint64` is not. -/
example : marshalCols .bin [.field { name := [65] } (.uint .w8 false) (.uint 1), .slot { name := [88] } (some (.ptr (.lib .uint64), .ptr (some (.uint 2)))),
    .field { name := [66] } (.uint .w8 false) (.uint 3)] = (.ok (), [1, 2, 0, 0, 0, 0, 0, 0, 0, 3]) := rfl
example : marshalCols .borsh [.field { name := [65] } (.uint .w8 false) (.uint 1),
    .slot { name := [88] } (some (.ptr (.uint .w64 false), .ptr (some (.uint 2)))),
    .field { name := [66] } (.uint .w8 false) (.uint 3)] = (.ok (), [1, 3]) := rfl

/-- But the `*uint64` is read. -/
example : unmarshalCols .borsh [.field { name := [65] } (.uint .w8 false) (.uint 0),
    .slot { name := [88] } (some (.ptr (.uint .w64 false), .ptr (some (.uint 0)))),
    .field { name := [66] } (.uint .w8 false) (.uint 0)] [1, 2, 0, 0, 0, 0, 0, 0, 0, 3] =
    .ok [.field { name := [65] } (.uint .w8 false) (.uint 1), .slot { name := [88] } (some (.ptr (.uint .w64 false), .ptr (some (.uint 2)))),
      .field { name := [66] } (.uint .w8 false) (.uint 3)] := rfl

/-- The hypotheses of `C94_encode_fields` and `C94_decode_fields`. -/
example : Tame [.field { name := [65] } .str (.str [1]), .slot { name := [88] } (some (.ptr (.lib .uint64), .ptr (some (.uint 2))))] := by
  intro m s h
  simp only [List.mem_cons, List.not_mem_nil, or_false, reduceCtorEq, false_or, Col.slot.injEq] at h
  obtain ⟨rfl, rfl⟩ := h
  exact ⟨⟨rfl, rfl, rfl⟩, fun l v h => by cases h; exact ⟨_, rfl⟩⟩

/-- Those of the round trip, with a big endian field in Borsh. -/
example : Pointers .borsh
    [.slot { name := [88], tag := { order := .be } } (some (.ptr (.lib .uint64), .ptr (some (.uint 2)))), .slot { name := [89] } (some (.ptr (.lib .bool), .ptr (some (.bool true))))]
    [.slot { name := [88], tag := { order := .be } } (some (.ptr (.lib .uint64), .ptr (some (.uint 9)))), .slot { name := [89] } (some (.ptr (.lib .bool), .ptr (some (.bool false))))]
    [.slot { name := [88], tag := { order := .be } } (some (.ptr (.lib .uint64), .ptr (some (.uint 2)))), .slot { name := [89] } (some (.ptr (.lib .bool), .ptr (some (.bool true))))] :=
  .cons _ ⟨rfl, rfl, rfl, rfl, rfl⟩ rfl .uint64 (by decide) (.uint 2) (.uint 9) (by simp [LibEnc]) (by simp [LibRet])
    (.cons _ ⟨rfl, rfl, rfl, rfl, rfl⟩ rfl .bool (by decide) (.bool true) (.bool false) (by simp [LibEnc]) (by simp [LibRet]) .nil)

example : pointersWire .borsh
    [.slot { name := [88], tag := { order := .be } } (some (.ptr (.lib .uint64), .ptr (some (.uint 2)))),
      .slot { name := [89] } (some (.ptr (.lib .bool), .ptr (some (.bool true))))] = [0, 0, 0, 0, 0, 0, 0, 2, 1] := by decide +kernel

/-- An optional field: a `string` in the interface gives the flag and nothing else. -/
example : marshalCols .borsh [.slot { name := [88], tag := { option := true } } (some (.str, .str [65])), .field { name := [66] } (.uint .w8 false) (.uint 3)] =
    (.ok (), [1, 3]) := rfl
example : IsOptional { name := [88], tag := { option := true } } := ⟨rfl, rfl, rfl, rfl, rfl, rfl⟩
example : unmarshalCols .borsh [.slot { name := [88], tag := { option := true } } (some (.str, .str [65]))] [0] =
    .ok [.slot { name := [88], tag := { option := true } } none] := rfl
example : unmarshalCols .bin [.slot { name := [88], tag := { option := true } } (some (.ptr (.ptr .str), .ptr (some (.ptr (some (.str [65]))))))] [0, 0, 0, 0] =
    .ok [.slot { name := [88], tag := { option := true } } (some (.ptr (.ptr .str), .ptr (some (.ptr none))))] := rfl

/-- A slice. -/
example : marshalSlots .borsh [none, some (.lib .varuint32, .uint 300), some (.str, .str [65])] = (.ok (), [3, 0, 0, 0, 172, 2]) := rfl
example : unmarshalSlots .borsh none [2, 0, 0, 0, 172, 2] = .ok (some [none, none]) := rfl

end Verif.Props
