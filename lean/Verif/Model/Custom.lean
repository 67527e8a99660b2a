import Verif.Model.Interface
/-!
# Types with their own `MarshalWithEncoder` and `UnmarshalWithDecoder`

The main model knows the marshalers of the library.  Here is the reflection codec for types that may contain any others
(`BinaryMarshaler`, `BinaryUnmarshaler`, interface.go:24-32).  A method is an arbitrary function on the state of the encoder or decoder.

Map keys have no methods of their own here.  `UnmarshalWithDecoder` has a pointer receiver, as it must store what it reads.
-/
namespace Verif

/-- `MarshalWithEncoder` of a defined type `T`. -/
inductive Method where
  /-- there is none -/
  | none
  /-- `func (x T) MarshalWithEncoder(…)`: in the method sets of `T` and `*T` -/
  | value (f : Val → EM Unit)
  /-- `func (x *T) MarshalWithEncoder(…)`: in the method set of `*T` only; the argument is `Option.none` for a nil pointer -/
  | pointer (f : Option Val → EM Unit)

mutual
/-- Go types.  `plain` are the types of the main model. -/
inductive CTy where
  | plain (t : Ty)
  /-- a defined type with the given underlying type (not itself a defined type with methods, no pointer, no interface) and methods;
  `read` is `UnmarshalWithDecoder` as a function from the old to the new content of the receiver -/
  | user (under : CTy) (m : Method) (read : Option (Val → DM Val))
  | ptr (c : CTy)
  | slice (c : CTy)
  | array (n : Nat) (c : CTy)
  | map (k : Ty) (c : CTy)
  | struct (fs : CFields)
inductive CFields where
  | nil
  | cons (m : FieldMeta) (c : CTy) (fs : CFields)
end

mutual
/-- The type without its methods: what `Kind`, `IsZero`, `reflect.Zero` see. -/
def CTy.erase : CTy → Ty
  | .plain t => t
  | .user c _ _ => c.erase
  | .ptr c => .ptr c.erase
  | .slice c => .slice c.erase
  | .array n c => .array n c.erase
  | .map k c => .map k c.erase
  | .struct fs => .struct fs.erase
def CFields.erase : CFields → Fields
  | .nil => .nil
  | .cons m c fs => .cons m c.erase fs.erase
end

/-- First field of type `BorshEnum` itself, tagged as enum (encoder_borsh.go:296-305). -/
def CFields.isEnum : CFields → Bool
  | .cons m (.plain .borshEnum) _ => m.tag.isEnum
  | _ => false

/-- `rt.NumField()`. -/
def CFields.length : CFields → Nat
  | .nil => 0
  | .cons _ _ fs => fs.length + 1

/-- `MarshalWithEncoder` as it is declared on the type; the library declares it on the value, and for `EmptyVariant` on the pointer
(encoder_borsh.go:281-283). -/
def CTy.method : CTy → Method
  | .user _ m _ => m
  | .plain (.lib .emptyVariant) => .pointer fun p =>
    match p with
    | some x => marshalLib .emptyVariant x
    | none => pure ()
  | .plain (.lib l) => .value (marshalLib l)
  | _ => .none

/-- `UnmarshalWithDecoder` of the type. -/
def CTy.reader : CTy → Option (Val → DM Val)
  | .user _ _ u => u
  | .plain (.lib l) => some (unmarshalLib l)
  | _ => none

/-- Does following all pointers lead to a type with `UnmarshalWithDecoder`? -/
def CTy.leadsToReader : CTy → Bool
  | .ptr c => c.leadsToReader
  | .plain t => t.baseLib
  | c => c.reader.isSome

/-- A field type that is, or points to, a type with `UnmarshalWithDecoder` (decoder_borsh.go:411-413): the method, the zero value of its
receiver, and whether it is behind a pointer. -/
def CTy.direct : CTy → Option ((Val → DM Val) × Val × Bool)
  | .ptr c => c.reader.map fun u => (u, c.erase.zero, true)
  | .plain (.ptr (.lib l)) => some (unmarshalLib l, l.zero, true)
  | c => c.reader.map fun u => (u, c.erase.zero, false)

/-- `encodeStructBorsh` up to the field loop (encoder_borsh.go:296-305) and `encodeComplexEnumBorsh` (encoder_borsh.go:249-261), as
`encStruct`. -/
def encStructC (e : Encoding) (fs : CFields) (vs : List Val) (fields : EM Unit) (nth : Nat → EM Unit) : EM Unit :=
  if e = .borsh ∧ fs.isEnum then
    match vs with
    | .uint n :: _ => do
      writeByte (UInt8.ofNat n)
      if n + 1 ≥ fs.length then M.err .enumTooLarge else nth (n + 1)
    | _ => M.panic
  else fields

mutual
/-- `encodeBin` / `encodeCompactU16` / `encodeBorsh` after the flags (encoder_bin.go:56-193, encoder_compact-u16.go:55-191,
encoder_borsh.go:108-246), as `encCore`. -/
def encC (e : Encoding) : CTy → Opt → Val → EM Unit
  | .plain t, o, v => encCore e t o v
  | .user c m _, o, v =>
    -- encoder_bin.go:60: `rv.Interface().(BinaryMarshaler)` on a value that is no pointer
    match m with
    | .value f => f v
    | _ => encC e c o v
  | .ptr c, o, .ptr p =>
    match c.method with
    | .value f =>
      match p with
      | some x => f x
      -- encoder_borsh.go:115-117; elsewhere the promoted method dereferences nil
      | none => if e = .borsh then pure () else M.panic
    | .pointer f =>
      match p with
      | some x => f (some x)
      | none => if e = .borsh then pure () else f none
    | .none =>
      if e = .borsh then do
        setCurE .le
        encC e c {} (p.getD c.erase.zero)
      else do
        setCurE o.order
        match p with
        | none => pure ()
        | some x => encC e c o x
  | .slice c, o, .seq xs => do
    let l : Int ←
      match o.sizeOf with
      | some s => pure s
      | none => do
        writeSeqLen e (xs.getD []).length
        pure ((xs.getD []).length : Int)
    match c.erase.uintKind with
    | some w => writeUints l w (xs.getD [])
    | none => forIndexM (fun x => do setCurE .le; encC e c {} x) l.toNat (xs.getD [])
  | .array n c, _, .arr xs =>
    match c.erase.uintKind with
    | some w => writeUints n w xs
    | none => forIndexM (fun x => do setCurE .le; encC e c {} x) n xs
  | .map k c, _, .map m => do
    let m ← mapEntries e k (m.getD [])
    writeSeqLen e m.length
    forEachM (fun x => do
      setCurE .le
      encCore e k {} x.1
      if k.found x.1 then do
        setCurE .le
        encC e c {} x.2
      else M.panic) m
  | .struct fs, _, .struct vs => encStructC e fs vs (encFieldsC e fs [] vs) (fun i => encNthC e fs i vs)
  | _, _, _ => M.panic
/-- `encodeStructBin` (encoder_bin.go:196-265), `encodeStructCompactU16` (encoder_compact-u16.go:194-263), the field loop of
`encodeStructBorsh` (encoder_borsh.go:307-369). -/
def encFieldsC (e : Encoding) : CFields → List (Bytes × Int) → List Val → EM Unit
  | .nil, _, _ => pure ()
  | .cons _ _ _, _, [] => M.panic
  | .cons m c fs, sm, v :: vs =>
    if m.tag.skip then encFieldsC e fs sm vs
    else do
      let sm ← recordSize m c.erase v sm
      if m.exported then do
        setCurE m.tag.order
        let more ← encFlags e c.erase (fieldOpt m sm) v
        if more then encC e c (fieldOpt m sm) v else pure ()
        encFieldsC e fs sm vs
      else encFieldsC e fs sm vs
/-- `rv.Field(i)` of a complex enum and its encoding (encoder_borsh.go:261-273). -/
def encNthC (e : Encoding) : CFields → Nat → List Val → EM Unit
  | .cons _ c _, 0, v :: _ => encPayloadC e c v
  | .cons _ _ fs, i + 1, _ :: vs => encNthC e fs i vs
  | _, _, _ => M.panic
/-- encoder_borsh.go:262-273: one pointer is followed, then the payload is written by kind; no method is called. -/
def encPayloadC (e : Encoding) : CTy → Val → EM Unit
  | .plain t, v => encPayload e t v
  | .user c _ _, v => encVariantC e c v
  | .ptr c, .ptr p =>
    match p with
    | none => pure ()
    | some x => encVariantC e c x
  | .ptr _, _ => M.panic
  | .struct fs, .struct vs => encStructC e fs vs (encFieldsC e fs [] vs) (fun i => encNthC e fs i vs)
  | .struct _, _ => M.panic
  | _, _ => pure ()
/-- encoder_borsh.go:265-273, after the pointer. -/
def encVariantC (e : Encoding) : CTy → Val → EM Unit
  | .plain t, v => encVariant e t v
  | .user c _ _, v => encVariantC e c v
  | .struct fs, .struct vs => encStructC e fs vs (encFieldsC e fs [] vs) (fun i => encNthC e fs i vs)
  | .struct _, _ => M.panic
  | _, _ => pure ()
end

/-- `decodeBin` / `decodeCompactU16` / `decodeBorsh` up to the flags (decoder_bin.go:44-86, decoder_borsh.go:44-106), as `decField`. -/
def decFieldC (e : Encoding) (c : CTy) (o : Opt) (old : Val) (core : DM Val) : DM Val := do
  setCurD o.order
  if o.optional then
    if c.reader.isSome then M.panic
    else do
      let present ← readFlag e
      if present then
        if e = .borsh ∧ o.coptional then
          if c.leadsToReader then M.panic
          else do
            let present ← readCOption
            if present then core else pure (absentBase c.erase)
        else core
      else pure (absentVal c.erase old)
  else if e = .borsh ∧ o.coptional then
    if c.reader.isSome then M.panic
    else do
      let present ← readCOption
      if present then core else pure (absentVal c.erase old)
  else core

/-- `decodeStructBorsh` up to the field loop and `deserializeComplexEnum` (decoder_borsh.go:291-331), as `decStruct`. -/
def decStructC (e : Encoding) (fs : CFields) (fields : DM (List Val)) (nth : Nat → DM (List Val)) : DM Val :=
  if e = .borsh ∧ fs.isEnum then do
    let tag ← readUint8
    if tag + 1 ≥ fs.length then M.err .enumTooLarge
    else do
      let vs ← nth (tag + 1)
      pure (.struct (.uint tag :: vs.tail))
  else do
    let vs ← fields
    pure (.struct vs)

mutual
/-- `decodeBin` (decoder_bin.go:80-249), `decodeCompactU16` (decoder_compact-u16.go:79-248), `decodeBorsh` (decoder_borsh.go:98-288)
after the flags, as `decCore`; `indirect` finds the method because the value is addressable (decoder.go:712-717, 746-750). -/
def decC (e : Encoding) : CTy → Opt → Val → DM Val
  | .plain t, o, old => decCore e t o old
  | .user c _ u, o, old =>
    match u with
    | some g => g old
    | none => decC e c o old
  | .ptr c, o, old => do
    let x ← decC e c o (old.deref c.erase)
    pure (.ptr (some x))
  | .slice c, o, old => do
    let l : Int ←
      match o.sizeOf with
      | some s => pure s
      | none => do
        let n ← readSeqLen e
        pure (n : Int)
    if e = .borsh ∧ l = 0 then pure old
    else do
      let d ← M.get
      if l > d.remaining then M.err .eof
      else
        match c.erase.uintKind with
        | some w => do
          let xs ← readUints l w
          pure (.seq (some xs))
        | none => do
          let xs ← repeatM (do setCurD .le; decC e c {} c.erase.zero) l.toNat
          pure (.seq (some xs))
  | .array n c, _, old => do
    match c.erase.uintKind with
    | some w => do
      let xs ← readUints n w
      pure (.arr xs)
    | none => do
      let xs ← traverseM (fun x => do setCurD .le; decC e c {} x) (old.elems n c.erase)
      pure (.arr xs)
  | .map k c, _, old => do
    let l ← readSeqLen e
    if l = 0 then pure old
    else do
      let xs ← repeatM (do
        setCurD .le
        let x ← decCore e k {} k.zero
        setCurD .le
        let y ← decC e c {} c.erase.zero
        pure (x, y)) l
      pure (.map (some (xs.foldl (fun m x => setEntry k x m) [])))
  | .struct fs, _, old =>
    decStructC e fs (decFieldsC e fs [] false (old.fields fs.erase)) (fun i => decNthC e fs i (old.fields fs.erase))
/-- `decodeStructBin` (decoder_bin.go:252-352), `decodeStructCompactU16` (decoder_compact-u16.go:251-351), the field loop of
`decodeStructBorsh` (decoder_borsh.go:333-452). -/
def decFieldsC (e : Encoding) : CFields → List (Bytes × Int) → Bool → List Val → DM (List Val)
  | .nil, _, _, _ => pure []
  | .cons _ _ _, _, _, [] => M.panic
  | .cons m c fs, sm, seen, v :: vs =>
    if m.tag.skip then do
      let rest ← decFieldsC e fs sm seen vs
      pure (v :: rest)
    else if !m.tag.binExt && seen then M.panic
    else do
      let atEnd ← extensionEnds m
      if atEnd || !m.exported then do
        let rest ← decFieldsC e fs sm (seen || m.tag.binExt) vs
        pure (v :: rest)
      else
        match (if e = .borsh then c.direct else none) with
        | some (g, z, isPtr) => do
          -- decoder_borsh.go:411-434: a new receiver; the option is ignored
          let x ← g z
          let rest ← decFieldsC e fs sm (seen || m.tag.binExt) vs
          pure ((if isPtr then .ptr (some x) else x) :: rest)
        | none => do
          let x ← decFieldC e c (fieldOpt m sm) v (decC e c (fieldOpt m sm) v)
          let sm ← recordSize m c.erase x sm
          let rest ← decFieldsC e fs sm (seen || m.tag.binExt) vs
          pure (x :: rest)
/-- `dec.decodeBorsh(rv.Field(i), nil)` (decoder_borsh.go:305-306). -/
def decNthC (e : Encoding) : CFields → Nat → List Val → DM (List Val)
  | .cons _ c _, 0, v :: vs => do
    setCurD .le
    let x ← decC e c {} v
    pure (x :: vs)
  | .cons _ _ fs, i + 1, v :: vs => do
    let rest ← decNthC e fs i vs
    pure (v :: rest)
  | _, _, _ => M.panic
end

/-- A method of an embedded field, promoted to the struct (Go specification, "Struct types"): the receiver is field `i`. -/
def Method.promoted (i : Nat) : Method → Method
  | .none => .none
  | .value f => .value fun v =>
    match v with
    | .struct vs => (vs[i]?.map f).getD M.panic
    | _ => M.panic
  | .pointer f => .pointer fun p =>
    match p with
    | some (.struct vs) => (vs[i]?.map fun x => f (some x)).getD M.panic
    | _ => M.panic

/-- A defined struct type without methods of its own that embeds `c` as its field `i`, and no other type with these methods. -/
def CTy.embedding (fs : CFields) (i : Nat) (c : CTy) : CTy :=
  .user (.struct fs) (c.method.promoted i) (c.reader.map fun g old =>
    match old with
    | .struct vs =>
      match vs[i]? with
      | some x => do
        let y ← g x
        pure (.struct (vs.set i y))
      | none => M.panic
    | _ => M.panic)

/-- `Encode` (encoder.go:68-86). -/
def encodeC (c : CTy) (v : Val) : EM Unit := do
  let s ← M.get
  if s.enc = .other then M.panic
  else do
    setCurE .le
    encC s.enc c {} v

/-- `Decode(&x)` (decoder.go:127-138). -/
def decodeC (c : CTy) (old : Val) : DM Val := do
  let d ← M.get
  if d.enc = .other then M.panic
  else do
    setCurD .le
    decC d.enc c {} old

/-- `MarshalBin(x)`, … (interface.go:39-58). -/
def marshalC (e : Encoding) (c : CTy) (v : Val) : Res Unit × Bytes :=
  ((encodeC c v (Enc.new e)).1, (encodeC c v (Enc.new e)).2.out)

/-- `UnmarshalBin(&x, b)`, … (interface.go:60-73). -/
def unmarshalC (e : Encoding) (c : CTy) (old : Val) (b : Bytes) : Res Val := (decodeC c old (Dec.new b e)).1

end Verif
