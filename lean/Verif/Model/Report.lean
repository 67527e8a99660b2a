import Verif.Model.DecodeReflect
import Verif.Model.EncodeReflect
import Verif.Model.Variant
/-!
# What the error values of `Encode` and `Decode` say

`Model/EncodeReflect` and `Model/DecodeReflect` keep the class of an error only.  Here an error is a `Report`: which fields it names
and whether `errors.Is` still finds the cause.  The functions follow those of the other two files; that they do the same but for
the reports is proved in `Proofs/Report`.
-/
namespace Verif

/-- An error value.  `fields`: the names put in front of it with `fmt.Errorf("error while encoding %q field: %w", …)` (encoder_bin.go:261,
encoder_borsh.go:366, encoder_compact-u16.go:259) or `"error while decoding %q field: %w"` (decoder_bin.go:337, decoder_borsh.go:438,
decoder_compact-u16.go:336), outermost first.  `found`: `errors.Is` and `errors.As` reach the cause, as it was never turned into text
with `%s`. -/
structure Report where
  fields : List Bytes
  found : Bool
  cause : Err
  deriving DecidableEq, Repr

/-- Outcome of a call, with reports for errors. -/
inductive Told (α : Type) where
  | ok (a : α)
  | err (r : Report)
  | panic
  deriving DecidableEq, Repr

/-- A stateful call that reports its errors. -/
def T (σ α : Type) := σ → Told α × σ

namespace T
variable {σ α β : Type}

def bind (m : T σ α) (f : α → T σ β) : T σ β := fun s =>
  match m s with
  | (.ok a, s') => f a s'
  | (.err r, s') => (.err r, s')
  | (.panic, s') => (.panic, s')

instance : Monad (T σ) where
  pure := fun a s => (.ok a, s)
  bind := bind

/-- A call whose error is returned as it is. -/
def of (m : M σ α) : T σ α := fun s =>
  match m s with
  | (.ok a, s') => (.ok a, s')
  | (.err x, s') => (.err ⟨[], true, x⟩, s')
  | (.panic, s') => (.panic, s')

/-- `fmt.Errorf("…: %s", err)` around the error. -/
def asText (m : T σ α) : T σ α := fun s =>
  match m s with
  | (.err r, s') => (.err { r with found := false }, s')
  | (.ok a, s') => (.ok a, s')
  | (.panic, s') => (.panic, s')

/-- `fmt.Errorf("error while … %q field: %w", name, err)` around the error. -/
def inField (name : Bytes) (m : T σ α) : T σ α := fun s =>
  match m s with
  | (.err r, s') => (.err { r with fields := name :: r.fields }, s')
  | (.ok a, s') => (.ok a, s')
  | (.panic, s') => (.panic, s')

/-- `repeatM` with reports. -/
def repeatT (f : T σ α) : Nat → T σ (List α)
  | 0 => Pure.pure []
  | n + 1 => do
    let a ← f
    let as ← repeatT f n
    Pure.pure (a :: as)

/-- `traverseM` with reports. -/
def traverseT (f : α → T σ β) : List α → T σ (List β)
  | [] => Pure.pure []
  | a :: as => do
    let b ← f a
    let bs ← traverseT f as
    Pure.pure (b :: bs)

/-- `forEachM` with reports. -/
def forEachT (f : α → T σ Unit) : List α → T σ Unit
  | [] => Pure.pure ()
  | a :: as => do
    f a
    forEachT f as

/-- `forIndexM` with reports. -/
def forIndexT (f : α → T σ Unit) : Nat → List α → T σ Unit
  | 0, _ => Pure.pure ()
  | _ + 1, [] => of M.panic
  | n + 1, a :: as => do
    f a
    forIndexT f n as

end T

/-- `encodeStructBorsh` up to the field loop (encoder_borsh.go:296-305) and `encodeComplexEnumBorsh` (encoder_borsh.go:249-261): the
errors of the tag and of the payload are returned as they are. -/
def encStructT (e : Encoding) (fs : Fields) (vs : List Val) (fields : T Enc Unit) (nth : Nat → T Enc Unit) : T Enc Unit :=
  if e = .borsh ∧ fs.isEnum then
    match vs with
    | .uint n :: _ => do
      T.of (writeByte (UInt8.ofNat n))
      if n + 1 ≥ fs.length then T.of (M.err .enumTooLarge) else nth (n + 1)
    | _ => T.of M.panic
  else fields

/-- `encU128Fields` with reports: `encodeStructBorsh` names the fields `Lo` and `Hi` (u128.go:30-34, encoder_borsh.go:365-367). -/
def encU128FieldsT : Val → T Enc Unit
  | .u128 lo hi _ => do
    T.inField [76, 111] (T.of (do setCurE .le; writeUint64 lo .le))
    T.inField [72, 105] (T.of (do setCurE .le; writeUint64 hi .le))
    T.of (setCurE .le)
  | _ => T.of M.panic

/-- `encLibPayload` with reports (encoder_borsh.go:265-273). -/
def encLibPayloadT (e : Encoding) (l : Lib) (v : Val) : T Enc Unit :=
  match l with
  | .uint128 | .int128 | .float128 => encU128FieldsT v
  | l => T.of (encLibPayload e l v)

mutual
/-- `encCore` with reports: everything below a field returns its errors as they are (encoder_bin.go:56-193,
encoder_compact-u16.go:55-191, encoder_borsh.go:108-246). -/
def encT (e : Encoding) : Ty → Opt → Val → T Enc Unit
  | .ptr t, o, .ptr p =>
    match t.asLib with
    | some _ => T.of (encCore e (.ptr t) o (.ptr p))
    | none =>
      if e = .borsh then do
        T.of (setCurE .le)
        encT e t {} (p.getD t.zero)
      else do
        T.of (setCurE o.order)
        match p with
        | none => pure ()
        | some x => encT e t o x
  | .slice t, o, .seq xs => do
    let l : Int ← T.of (
      match o.sizeOf with
      | some s => pure s
      | none => do
        writeSeqLen e (xs.getD []).length
        pure ((xs.getD []).length : Int))
    match t.uintKind with
    | some w => T.of (writeUints l w (xs.getD []))
    | none => T.forIndexT (fun x => do T.of (setCurE .le); encT e t {} x) l.toNat (xs.getD [])
  | .array n t, _, .arr xs =>
    match t.uintKind with
    | some w => T.of (writeUints n w xs)
    | none => T.forIndexT (fun x => do T.of (setCurE .le); encT e t {} x) n xs
  | .map k t, _, .map m => do
    let m ← T.of (mapEntries e k (m.getD []))
    T.of (writeSeqLen e m.length)
    T.forEachT (fun x => do
      T.of (setCurE .le)
      encT e k {} x.1
      if k.found x.1 then do
        T.of (setCurE .le)
        encT e t {} x.2
      else T.of M.panic) m
  | .struct fs, _, .struct vs => encStructT e fs vs (encFieldsT e fs [] vs) (fun i => encNthT e fs i vs)
  | t, o, v => T.of (encCore e t o v)
/-- `encFields` with reports: the error of a field is wrapped with its name (encoder_bin.go:260-262, encoder_borsh.go:365-367,
encoder_compact-u16.go:258-260). -/
def encFieldsT (e : Encoding) : Fields → List (Bytes × Int) → List Val → T Enc Unit
  | .nil, _, _ => pure ()
  | .cons _ _ _, _, [] => T.of M.panic
  | .cons m t fs, sm, v :: vs =>
    if m.tag.skip then encFieldsT e fs sm vs
    else do
      let sm ← T.of (recordSize m t v sm)
      if m.exported then do
        T.inField m.name (do
          T.of (setCurE m.tag.order)
          let more ← T.of (encFlags e t (fieldOpt m sm) v)
          if more then encT e t (fieldOpt m sm) v else pure ())
        encFieldsT e fs sm vs
      else encFieldsT e fs sm vs
/-- `encNth` with reports (encoder_borsh.go:261-273). -/
def encNthT (e : Encoding) : Fields → Nat → List Val → T Enc Unit
  | .cons _ t _, 0, v :: _ => encPayloadT e t v
  | .cons _ _ fs, i + 1, _ :: vs => encNthT e fs i vs
  | _, _, _ => T.of M.panic
/-- `encPayload` with reports (encoder_borsh.go:262-273): only `encodeStructBorsh` has fields to name. -/
def encPayloadT (e : Encoding) : Ty → Val → T Enc Unit
  | .ptr t, .ptr p =>
    match p with
    | none => pure ()
    | some x => encVariantT e t x
  | .struct fs, .struct vs => encStructT e fs vs (encFieldsT e fs [] vs) (fun i => encNthT e fs i vs)
  | .lib l, v => encLibPayloadT e l v
  | t, v => T.of (encPayload e t v)
/-- `encVariant` with reports (encoder_borsh.go:265-273). -/
def encVariantT (e : Encoding) : Ty → Val → T Enc Unit
  | .struct fs, .struct vs => encStructT e fs vs (encFieldsT e fs [] vs) (fun i => encNthT e fs i vs)
  | .lib l, v => encLibPayloadT e l v
  | t, v => T.of (encVariant e t v)
end

/-- `Encode` with reports (encoder.go:68-86). -/
def encodeT (t : Ty) (v : Val) : T Enc Unit := do
  let s ← T.of M.get
  if s.enc = .other then T.of M.panic
  else do
    T.of (setCurE .le)
    encT s.enc t {} v

/-- `UnmarshalWithDecoder` of the library's types with reports: `HexBytes` (types.go:98-106), `Varint16` (114-122), `Varuint16` (130-138)
and `Varuint32` (146-154) turn the cause into text, and so does `ReadFloat128` (decoder.go:598-603); the others return it. -/
def unmarshalLibT (l : Lib) (old : Val) : T Dec Val :=
  match l with
  | .hexBytes | .varint16 | .varuint16 | .varuint32 | .float128 => (T.of (unmarshalLib l old)).asText
  | _ => T.of (unmarshalLib l old)

/-- The flags of a field with reports: their errors become text (decoder_bin.go:61-65, decoder_compact-u16.go:60-64,
decoder_borsh.go:61-65, 80-84). -/
def decFieldT (e : Encoding) (t : Ty) (o : Opt) (old : Val) (core : T Dec Val) : T Dec Val := do
  T.of (setCurD o.order)
  if o.optional then
    if t.asLib.isSome then T.of M.panic
    else do
      let present ← (T.of (readFlag e)).asText
      if present then
        if e = .borsh ∧ o.coptional then
          if t.baseLib then T.of M.panic
          else do
            let present ← (T.of readCOption).asText
            if present then core else pure (absentBase t)
        else core
      else pure (absentVal t old)
  else if e = .borsh ∧ o.coptional then
    if t.asLib.isSome then T.of M.panic
    else do
      let present ← (T.of readCOption).asText
      if present then core else pure (absentVal t old)
  else core

/-- `decStruct` with reports (decoder_borsh.go:291-331). -/
def decStructT (e : Encoding) (fs : Fields) (fields : T Dec (List Val)) (nth : Nat → T Dec (List Val)) : T Dec Val :=
  if e = .borsh ∧ fs.isEnum then do
    let tag ← T.of readUint8
    if tag + 1 ≥ fs.length then T.of (M.err .enumTooLarge)
    else do
      let vs ← nth (tag + 1)
      pure (.struct (.uint tag :: vs.tail))
  else do
    let vs ← fields
    pure (.struct vs)

mutual
/-- `decCore` with reports (decoder_bin.go:80-249, decoder_compact-u16.go:79-248, decoder_borsh.go:98-288): errors are returned as they
are. -/
def decT (e : Encoding) : Ty → Opt → Val → T Dec Val
  | .lib l, _, old => unmarshalLibT l old
  | .ptr t, o, old => do
    let x ← decT e t o (old.deref t)
    pure (.ptr (some x))
  | .slice t, o, old => do
    let l : Int ← T.of (
      match o.sizeOf with
      | some s => pure s
      | none => do
        let n ← readSeqLen e
        pure (n : Int))
    if e = .borsh ∧ l = 0 then pure old
    else do
      let d ← T.of M.get
      if l > d.remaining then T.of (M.err .eof)
      else
        match t.uintKind with
        | some w => do
          let xs ← T.of (readUints l w)
          pure (.seq (some xs))
        | none => do
          let xs ← T.repeatT (do T.of (setCurD .le); decT e t {} t.zero) l.toNat
          pure (.seq (some xs))
  | .array n t, _, old => do
    match t.uintKind with
    | some w => do
      let xs ← T.of (readUints n w)
      pure (.arr xs)
    | none => do
      let xs ← T.traverseT (fun x => do T.of (setCurD .le); decT e t {} x) (old.elems n t)
      pure (.arr xs)
  | .map k t, _, old => do
    let l ← T.of (readSeqLen e)
    if l = 0 then pure old
    else do
      let xs ← T.repeatT (do
        T.of (setCurD .le)
        let x ← decT e k {} k.zero
        T.of (setCurD .le)
        let y ← decT e t {} t.zero
        pure (x, y)) l
      pure (.map (some (xs.foldl (fun m x => setEntry k x m) [])))
  | .struct fs, _, old =>
    decStructT e fs (decFieldsT e fs [] false (old.fields fs)) (fun i => decNthT e fs i (old.fields fs))
  | t, o, old => T.of (decCore e t o old)
/-- `decFields` with reports: the error of a field is wrapped with its name (decoder_bin.go:336-338, decoder_borsh.go:437-439,
decoder_compact-u16.go:335-337), but that of a library type in Borsh is not (decoder_borsh.go:418-421, 427-430). -/
def decFieldsT (e : Encoding) : Fields → List (Bytes × Int) → Bool → List Val → T Dec (List Val)
  | .nil, _, _, _ => pure []
  | .cons _ _ _, _, _, [] => T.of M.panic
  | .cons m t fs, sm, seen, v :: vs =>
    if m.tag.skip then do
      let rest ← decFieldsT e fs sm seen vs
      pure (v :: rest)
    else if !m.tag.binExt && seen then T.of M.panic
    else do
      let atEnd ← T.of (extensionEnds m)
      if atEnd || !m.exported then do
        let rest ← decFieldsT e fs sm (seen || m.tag.binExt) vs
        pure (v :: rest)
      else
        match (if e = .borsh then t.directLib else none) with
        | some (l, isPtr) => do
          let x ← unmarshalLibT l l.zero
          let rest ← decFieldsT e fs sm (seen || m.tag.binExt) vs
          pure ((if isPtr then .ptr (some x) else x) :: rest)
        | none => do
          let x ← T.inField m.name (decFieldT e t (fieldOpt m sm) v (decT e t (fieldOpt m sm) v))
          let sm ← T.of (recordSize m t x sm)
          let rest ← decFieldsT e fs sm (seen || m.tag.binExt) vs
          pure (x :: rest)
/-- `decNth` with reports (decoder_borsh.go:305-306). -/
def decNthT (e : Encoding) : Fields → Nat → List Val → T Dec (List Val)
  | .cons _ t _, 0, v :: vs => do
    T.of (setCurD .le)
    let x ← decT e t {} v
    pure (x :: vs)
  | .cons _ _ fs, i + 1, v :: vs => do
    let rest ← decNthT e fs i vs
    pure (v :: rest)
  | _, _, _ => T.of M.panic
end

/-- `Decode(&x)` with reports (decoder.go:127-138, decoder_bin.go:29-42). -/
def decodeT (t : Ty) (old : Val) : T Dec Val := do
  let d ← T.of M.get
  if d.enc = .other then T.of M.panic
  else do
    T.of (setCurD .le)
    decT d.enc t {} old

/-- `UnmarshalBinaryVariant` with reports (variant.go:281-353): the errors of the type id (variant.go:287, 293, 299, 305) and of the value
(321, 347) become text, the unknown type (315) is an error of its own. -/
def unmarshalVariantT (d : VariantDef) : T Dec BaseVariant := do
  let id ← (T.of (readVariantID d.encoding)).asText
  match d.typeOf id with
  | some (some (.ptr t)) => do
    let x ← (decodeT t t.zero).asText
    pure { id, impl := some (.ptr t, .ptr (some x)) }
  | some (some t) => do
    let x ← (decodeT t t.zero).asText
    pure { id, impl := some (t, x) }
  | _ => T.of (M.err .unknownVariant)

end Verif
