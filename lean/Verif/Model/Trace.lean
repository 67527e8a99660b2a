import Verif.Model.EncodeReflect
import Verif.Model.DecodeReflect
/-!
# The encoders while tracing is on

`traceEnabled` (logging.go:28, set once by `init`, 34) guards the calls of `zlog` all over the library.  Their arguments are evaluated when
tracing is on, and the encoders rename the package variable `zlog` for the time of an array, a slice or a map.  Here are the
encoders with these statements; what the logger prints is left out.  The functions follow those of `Model/EncodeReflect`.

The other guarded statements only build fields for the logger from values at hand (`rv.Kind()`, `rt.String()`, numbers, `zap.Reflect`,
`zap.Stringer`, whose methods are the `String` methods of `Uint128`, `Int128`, `HexBytes`), which neither fail nor change anything.  This holds
for all of them in decoder.go, decoder_bin.go, decoder_borsh.go, decoder_compact-u16.go and encoder.go, so that decoders and primitive
writes need no second definition.
-/
namespace Verif

/-- The argument of `zlog.Named` (encoder_bin.go:106,139,173, encoder_borsh.go:152,184,221, encoder_compact-u16.go:105,137,171). -/
inductive LogName where
  | array | slice | struct
  deriving DecidableEq, Repr

/-- An encoder and the package variable `zlog` (logging.go:27), of which the names given with `Named` are kept. -/
structure Traced where
  enc : Enc
  zlog : List LogName

/-- A call that does not touch `zlog`. -/
def onEnc {α : Type} (m : EM α) : M Traced α := fun s => ((m s.enc).1, { s with enc := (m s.enc).2 })

/-- `if traceEnabled { defer func(prev *zap.Logger) { zlog = prev }(zlog); zlog = zlog.Named(n); … }` and the rest `m` of the function
(encoder_bin.go:104-108, 137-141, encoder_borsh.go:150-154, 182-186, 220-221): the deferred function also runs when `m` panics. -/
def named {α : Type} (trace : Bool) (n : LogName) (m : M Traced α) : M Traced α := fun s =>
  if trace then ((m { s with zlog := s.zlog ++ [n] }).1, { (m { s with zlog := s.zlog ++ [n] }).2 with zlog := s.zlog })
  else m s

/-- The arguments of `zlog.Debug("encode: map", …)`.  In Bin and CompactU16 one of them is `rv.Elem()` on the map itself (encoder_bin.go:170,
encoder_compact-u16.go:168), and `reflect.Value.Elem` panics for every kind but `Interface` and `Ptr`; in Borsh it is `rv`
(encoder_borsh.go:218). -/
def mapDebug (trace : Bool) (e : Encoding) : M Traced Unit :=
  if trace = true ∧ e ≠ .borsh then M.panic else pure ()

/-- `encodeStructBorsh` up to the field loop and `encodeComplexEnumBorsh` (encoder_borsh.go:249-261, 296-305): as `encStruct`. -/
def encStructTr (e : Encoding) (fs : Fields) (vs : List Val) (fields : M Traced Unit) (nth : Nat → M Traced Unit) :
    M Traced Unit :=
  if e = .borsh ∧ fs.isEnum then
    match vs with
    | .uint n :: _ => do
      onEnc (writeByte (UInt8.ofNat n))
      if n + 1 ≥ fs.length then M.err .enumTooLarge else nth (n + 1)
    | _ => M.panic
  else fields

mutual
/-- `encodeBin` (encoder_bin.go:56-193), `encodeCompactU16` (encoder_compact-u16.go:55-191), `encodeBorsh` (encoder_borsh.go:108-246): as
`encCore`. -/
def encCoreTr (trace : Bool) (e : Encoding) : Ty → Opt → Val → M Traced Unit
  | .lib l, _, v => onEnc (marshalLib l v)
  | .ptr t, o, .ptr p =>
    match t.asLib with
    | some l =>
      match p with
      | some x => onEnc (marshalLib l x)
      | none => if e = .borsh ∨ l = .emptyVariant then pure () else M.panic
    | none =>
      if e = .borsh then do
        onEnc (setCurE .le)
        encCoreTr trace e t {} (p.getD t.zero)
      else do
        onEnc (setCurE o.order)
        match p with
        | none => pure ()
        | some x => encCoreTr trace e t o x
  | .slice t, o, .seq xs => do
    -- the logger is renamed behind the length prefix (encoder_bin.go:132-141, encoder_borsh.go:177-186)
    let l : Int ←
      match o.sizeOf with
      | some s => pure s
      | none => do
        onEnc (writeSeqLen e (xs.getD []).length)
        pure ((xs.getD []).length : Int)
    named trace .slice <|
      match t.uintKind with
      | some w => onEnc (writeUints l w (xs.getD []))
      | none => forIndexM (fun x => do onEnc (setCurE .le); encCoreTr trace e t {} x) l.toNat (xs.getD [])
  | .array n t, _, .arr xs =>
    named trace .array <|
      match t.uintKind with
      | some w => onEnc (writeUints n w xs)
      | none => forIndexM (fun x => do onEnc (setCurE .le); encCoreTr trace e t {} x) n xs
  | .map k t, _, .map m => do
    let m ← onEnc (mapEntries e k (m.getD []))
    mapDebug trace e
    named trace .struct do
      onEnc (writeSeqLen e m.length)
      forEachM (fun x => do
        onEnc (setCurE .le)
        encCoreTr trace e k {} x.1
        if k.found x.1 then do
          onEnc (setCurE .le)
          encCoreTr trace e t {} x.2
        else M.panic) m
  | .struct fs, _, .struct vs => encStructTr e fs vs (encFieldsTr trace e fs [] vs) (fun i => encNthTr trace e fs i vs)
  | .iface, _, .nil => pure ()
  | .bool, o, v => onEnc (encPlain e .bool o v)
  | .uint w _, o, v => onEnc (encPlain e (.uint w) o v)
  | .int w _, o, v => onEnc (encPlain e (.int w) o v)
  | .borshEnum, o, v => onEnc (encPlain e (.uint .w8) o v)
  | .f32, o, v => onEnc (encPlain e .f32 o v)
  | .f64, o, v => onEnc (encPlain e .f64 o v)
  | .str, o, v => onEnc (encPlain e .string o v)
  | .plainInt, _, _ => M.err .unsupported
  | .plainUint, _, _ => M.err .unsupported
  | .other, _, _ => M.err .unsupported
  | _, _, _ => M.panic
/-- `encodeStructBin` (encoder_bin.go:196-265), `encodeStructCompactU16` (encoder_compact-u16.go:194-263), the field loop of
`encodeStructBorsh` (encoder_borsh.go:307-369): as `encFields`. -/
def encFieldsTr (trace : Bool) (e : Encoding) : Fields → List (Bytes × Int) → List Val → M Traced Unit
  | .nil, _, _ => pure ()
  | .cons _ _ _, _, [] => M.panic
  | .cons m t fs, sm, v :: vs =>
    if m.tag.skip then encFieldsTr trace e fs sm vs
    else do
      let sm ← recordSize m t v sm
      if m.exported then do
        onEnc (setCurE m.tag.order)
        let more ← onEnc (encFlags e t (fieldOpt m sm) v)
        if more then encCoreTr trace e t (fieldOpt m sm) v else pure ()
        encFieldsTr trace e fs sm vs
      else encFieldsTr trace e fs sm vs
/-- encoder_borsh.go:261-273: as `encNth`. -/
def encNthTr (trace : Bool) (e : Encoding) : Fields → Nat → List Val → M Traced Unit
  | .cons _ t _, 0, v :: _ => encPayloadTr trace e t v
  | .cons _ _ fs, i + 1, _ :: vs => encNthTr trace e fs i vs
  | _, _, _ => M.panic
/-- encoder_borsh.go:262-273: as `encPayload`. -/
def encPayloadTr (trace : Bool) (e : Encoding) : Ty → Val → M Traced Unit
  | .ptr t, .ptr p =>
    match p with
    | none => pure ()
    | some x => encVariantTr trace e t x
  | .ptr _, _ => M.panic
  | .struct fs, .struct vs => encStructTr e fs vs (encFieldsTr trace e fs [] vs) (fun i => encNthTr trace e fs i vs)
  | .struct _, _ => M.panic
  | .lib l, v => onEnc (encLibPayload e l v)
  | t, v => onEnc ((encScalar e t.kind .le v).getD (pure ()))
/-- encoder_borsh.go:265-273: as `encVariant`. -/
def encVariantTr (trace : Bool) (e : Encoding) : Ty → Val → M Traced Unit
  | .struct fs, .struct vs => encStructTr e fs vs (encFieldsTr trace e fs [] vs) (fun i => encNthTr trace e fs i vs)
  | .struct _, _ => M.panic
  | .lib l, v => onEnc (encLibPayload e l v)
  | t, v => onEnc ((encScalar e t.kind .le v).getD (pure ()))
end

/-- `Encode` (encoder.go:68-86). -/
def encodeTr (trace : Bool) (t : Ty) (v : Val) : M Traced Unit := do
  let s ← M.get
  if s.enc.enc = .other then M.panic
  else do
    onEnc (setCurE .le)
    encCoreTr trace s.enc.enc t {} v

/-- `MarshalBin`, `MarshalBorsh`, `MarshalCompactU16` (interface.go:39-58). -/
def marshalT (trace : Bool) (e : Encoding) (t : Ty) (v : Val) : Res Unit × Bytes :=
  ((encodeTr trace t v ⟨Enc.new e, []⟩).1, (encodeTr trace t v ⟨Enc.new e, []⟩).2.enc.out)

end Verif
