import Verif.Model.Interface
/-!
# Variables of type `interface{}` that hold something

In the main model an interface holds nothing.  Here are variables, struct fields and slice elements of type `interface{}` that may
hold a value of one of the other types.  Maps with values of interface type are
in `Model/DynamicMap`.
-/
namespace Verif

/-- What an `interface{}` holds: nothing, or a value of some type (never itself an interface). -/
abbrev Slot := Option (Ty × Val)

/-- `encodeBin`, `encodeCompactU16`, `encodeBorsh` for `rv.Kind() == reflect.Interface`, after the flags: `rv.Interface()` is what the
variable holds, so that the methods of the library types are found (encoder_bin.go:60-65, encoder_compact-u16.go:59-64,
encoder_borsh.go:114-122; there the test for nil pointers is about `rv`, which is no pointer).  A nil pointer to a library type is
dereferenced by the promoted method.  Everything else is skipped (encoder_bin.go:94-96, encoder_compact-u16.go:93-95,
encoder_borsh.go:138-140). -/
def encSlot : Slot → EM Unit
  | none => pure ()
  | some (t, v) =>
    match t.directLib, v with
    | some (l, false), v => marshalLib l v
    | some (l, true), .ptr (some x) => marshalLib l x
    | some (l, true), .ptr none => if l = .emptyVariant then pure () else M.panic
    | some (_, true), _ => M.panic
    | none, _ => pure ()

/-- `decodeBin`, `decodeCompactU16`, `decodeBorsh` for such a variable, after the flags: a pointer that is not nil is followed
(`indirect`, decoder.go:719-726) and what it points to is decoded, or its method called; everything else is skipped
(decoder_bin.go:152-154, decoder_compact-u16.go:151-153, decoder_borsh.go:185-187). -/
def decSlot (e : Encoding) (o : Opt) : Slot → DM Slot
  | some (.ptr t, .ptr (some x)) => do
    let y ← decCore e (.ptr t) o (.ptr (some x))
    pure (some (.ptr t, y))
  | s => pure s

/-- `Encode(&x)` for a variable `x` of type `interface{}` (encoder.go:68-86; one pointer, encoder_bin.go:93, encoder_borsh.go:131-137). -/
def encodeAny (s : Slot) : EM Unit := do
  let st ← M.get
  if st.enc = .other then M.panic
  else do
    setCurE .le
    setCurE .le
    encSlot s

/-- `Decode(&x)` (decoder.go:127-138). -/
def decodeAny (s : Slot) : DM Slot := do
  let d ← M.get
  if d.enc = .other then M.panic
  else do
    setCurD .le
    decSlot d.enc {} s

/-- A field of a struct: of an ordinary type, or of type `interface{}`. -/
inductive Col where
  | field (m : FieldMeta) (t : Ty) (v : Val)
  | slot (m : FieldMeta) (s : Slot)

/-- The flags of an optional field (encoder_bin.go:41-54, encoder_compact-u16.go:40-53, encoder_borsh.go:79-106): `rv.IsZero()` says that
the interface is nil. -/
def encSlotFlags (e : Encoding) (o : Opt) (s : Slot) : EM Bool :=
  if o.optional ∧ s.isNone then do
    writeFlag e false
    pure false
  else do
    if o.optional then writeFlag e true
    if e = .borsh ∧ o.coptional then
      if s.isNone then do
        writeCOption false
        pure false
      else do
        writeCOption true
        pure true
    else pure true

/-- `encodeStructBin` (encoder_bin.go:196-265), `encodeStructCompactU16` (encoder_compact-u16.go:194-263), the field loop of
`encodeStructBorsh` (encoder_borsh.go:307-369).  `sizeof` on an interface field panics (decoder.go:152-153). -/
def encCols (e : Encoding) : List Col → List (Bytes × Int) → EM Unit
  | [], _ => pure ()
  | .field m t v :: cs, sm =>
    if m.tag.skip then encCols e cs sm
    else do
      let sm ← recordSize m t v sm
      if m.exported then do
        setCurE m.tag.order
        let more ← encFlags e t (fieldOpt m sm) v
        if more then encCore e t (fieldOpt m sm) v else pure ()
        encCols e cs sm
      else encCols e cs sm
  | .slot m s :: cs, sm =>
    if m.tag.skip then encCols e cs sm
    else do
      let sm ← recordSize m .iface .nil sm
      if m.exported then do
        setCurE m.tag.order
        let more ← encSlotFlags e (fieldOpt m sm) s
        if more then encSlot s else pure ()
        encCols e cs sm
      else encCols e cs sm

/-- Does the variable hold a pointer to a pointer that is not nil?  Then `indirect(rv, true)` follows it (decoder.go:721). -/
def absentSlot : Slot → Slot
  | some (.ptr (.ptr t), .ptr (some x)) => some (.ptr (.ptr t), absentVal (.ptr (.ptr t)) (.ptr (some x)))
  | _ => none

/-- Does the variable hold a pointer that leads to a library type?  Then `indirect(rv, false)` leaves no `reflect.Value`. -/
def heldLib : Slot → Bool
  | some (.ptr t, .ptr (some _)) => t.baseLib
  | _ => false

/-- What a second absence flag clears, after `indirect(rv, false)` (decoder_borsh.go:77-97). -/
def absentSlotBase : Slot → Slot
  | some (.ptr t, .ptr (some _)) => some (.ptr t, absentBase (.ptr t))
  | _ => none

/-- A field with its flags (decoder_bin.go:44-79, decoder_compact-u16.go:43-78, decoder_borsh.go:44-99), as `decField`.  After a first
flag that says "present", `indirect(rv, false)` has followed the pointers; with a library type every continuation panics
(`rv.Type()` on line 82, `rv.Set` on line 91, `indirect` on line 96). -/
def decSlotField (e : Encoding) (o : Opt) (s : Slot) : DM Slot := do
  setCurD o.order
  if o.optional then do
    let present ← readFlag e
    if present then
      if e = .borsh ∧ o.coptional then
        if heldLib s then M.panic
        else do
          let present ← readCOption
          if present then decSlot e o s else pure (absentSlotBase s)
      else decSlot e o s
    else pure (absentSlot s)
  else if e = .borsh ∧ o.coptional then do
    let present ← readCOption
    if present then decSlot e o s else pure (absentSlot s)
  else decSlot e o s

/-- `decodeStructBin` (decoder_bin.go:252-352), `decodeStructCompactU16` (decoder_compact-u16.go:251-351), the field loop of
`decodeStructBorsh` (decoder_borsh.go:333-452); `interface{}` has no methods. -/
def decCols (e : Encoding) : List Col → List (Bytes × Int) → Bool → DM (List Col)
  | [], _, _ => pure []
  | .field m t v :: cs, sm, seen =>
    if m.tag.skip then do
      let rest ← decCols e cs sm seen
      pure (.field m t v :: rest)
    else if !m.tag.binExt && seen then M.panic
    else do
      let atEnd ← extensionEnds m
      if atEnd || !m.exported then do
        let rest ← decCols e cs sm (seen || m.tag.binExt)
        pure (.field m t v :: rest)
      else
        match (if e = .borsh then t.directLib else none) with
        | some (l, isPtr) => do
          let x ← unmarshalLib l l.zero
          let rest ← decCols e cs sm (seen || m.tag.binExt)
          pure (.field m t (if isPtr then .ptr (some x) else x) :: rest)
        | none => do
          let x ← decField e t (fieldOpt m sm) v (decCore e t (fieldOpt m sm) v)
          let sm ← recordSize m t x sm
          let rest ← decCols e cs sm (seen || m.tag.binExt)
          pure (.field m t x :: rest)
  | .slot m s :: cs, sm, seen =>
    if m.tag.skip then do
      let rest ← decCols e cs sm seen
      pure (.slot m s :: rest)
    else if !m.tag.binExt && seen then M.panic
    else do
      let atEnd ← extensionEnds m
      if atEnd || !m.exported then do
        let rest ← decCols e cs sm (seen || m.tag.binExt)
        pure (.slot m s :: rest)
      else do
        let x ← decSlotField e (fieldOpt m sm) s
        let sm ← recordSize m .iface .nil sm
        let rest ← decCols e cs sm (seen || m.tag.binExt)
        pure (.slot m x :: rest)

/-- `Encode` of a struct with these fields (no Borsh enum). -/
def encodeCols (cs : List Col) : EM Unit := do
  let st ← M.get
  if st.enc = .other then M.panic
  else do
    setCurE .le
    encCols st.enc cs []

/-- `Decode` into such a struct. -/
def decodeCols (cs : List Col) : DM (List Col) := do
  let d ← M.get
  if d.enc = .other then M.panic
  else do
    setCurD .le
    decCols d.enc cs [] false

/-- `Encode` of a `[]interface{}` (encoder_bin.go:124-157, encoder_compact-u16.go:123-156, encoder_borsh.go:169-202). -/
def encodeSlots (xs : List Slot) : EM Unit := do
  let st ← M.get
  if st.enc = .other then M.panic
  else do
    setCurE .le
    writeSeqLen st.enc xs.length
    forIndexM (fun x => do setCurE .le; encSlot x) xs.length xs

/-- `Decode` into a `[]interface{}` holding `old`: the elements are new (decoder_bin.go:176-213, decoder_compact-u16.go:175-212,
decoder_borsh.go:211-252). -/
def decodeSlots (old : Option (List Slot)) : DM (Option (List Slot)) := do
  let d ← M.get
  if d.enc = .other then M.panic
  else do
    setCurD .le
    let l ← readSeqLen d.enc
    if d.enc = .borsh ∧ l = 0 then pure old
    else do
      let d ← M.get
      if (l : Int) > d.remaining then M.err .eof
      else do
        let xs ← repeatM (do setCurD .le; decSlot d.enc {} none) l
        pure (some xs)

/-- `MarshalBin(&x)`, … (interface.go:39-58) for a variable `x` of type `interface{}`. -/
def marshalAny (e : Encoding) (s : Slot) : Res Unit × Bytes :=
  ((encodeAny s (Enc.new e)).1, (encodeAny s (Enc.new e)).2.out)

/-- `UnmarshalBin(&x, b)`, … (interface.go:60-73). -/
def unmarshalAny (e : Encoding) (s : Slot) (b : Bytes) : Res Slot := (decodeAny s (Dec.new b e)).1

/-- The same for a struct. -/
def marshalCols (e : Encoding) (cs : List Col) : Res Unit × Bytes :=
  ((encodeCols cs (Enc.new e)).1, (encodeCols cs (Enc.new e)).2.out)

/-- The same for a struct. -/
def unmarshalCols (e : Encoding) (cs : List Col) (b : Bytes) : Res (List Col) := (decodeCols cs (Dec.new b e)).1

/-- The same for a slice. -/
def marshalSlots (e : Encoding) (xs : List Slot) : Res Unit × Bytes :=
  ((encodeSlots xs (Enc.new e)).1, (encodeSlots xs (Enc.new e)).2.out)

/-- The same for a slice. -/
def unmarshalSlots (e : Encoding) (old : Option (List Slot)) (b : Bytes) : Res (Option (List Slot)) :=
  (decodeSlots old (Dec.new b e)).1

end Verif
