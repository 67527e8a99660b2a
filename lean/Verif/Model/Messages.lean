import Verif.Model.DecodeReflect
/-!
# decoder.go: the numbers in error messages

The reads of `Verif.Model.Decoder` fail with an error of some class.  Many of the messages say how many bytes were needed and how many there were, or how
many are missing.  Here are the reads once more, and `Decode` on top of them, with these numbers.  The rest of the wording is not modelled, and of an error
that wraps another one only the inner one is kept (`Model/Report` has the wrapping).
-/
namespace Verif

/-- An error message. -/
inductive Msg where
  /-- "uint16 required [need] bytes, remaining [left]" (decoder.go:360,410,424,455,478,501,527,559,580) -/
  | required (need : Int) (left : Int)
  /-- "byte array: varlen=len, missing n bytes" (decoder.go:238) -/
  | varlen (len : Nat) (n : Int)
  /-- "not enough data: n bytes missing" (decoder.go:289) -/
  | missing (n : Int)
  /-- "request to skip count but only left bytes remain" (decoder.go:656) -/
  | skip (count : Nat) (left : Int)
  /-- an error whose message has no number of bytes -/
  | plain (e : Err)
  /-- `fmt.Errorf("…: %w", err)` or `fmt.Errorf("…: %s", err)` -/
  | within (m : Msg)
  deriving DecidableEq, Repr

/-- Its class. -/
def Msg.cls : Msg → Err
  | .required _ _ => .notEnough
  | .varlen _ _ => .notEnough
  | .missing _ => .notEnough
  | .skip _ _ => .notEnough
  | .plain e => e
  | .within m => m.cls

/-- As `Res`. -/
inductive TRes (α : Type) where
  | ok (a : α)
  | err (m : Msg)
  | panic
  deriving DecidableEq, Repr

/-- As `DM`. -/
def TM (α : Type) := Dec → TRes α × Dec

namespace TM
variable {α β : Type}

def pure (a : α) : TM α := fun d => (.ok a, d)

def bind (m : TM α) (f : α → TM β) : TM β := fun d =>
  match m d with
  | (.ok a, d') => f a d'
  | (.err x, d') => (.err x, d')
  | (.panic, d') => (.panic, d')

instance : Monad TM where
  pure := pure
  bind := bind

/-- `return …, err` -/
def say (m : Msg) : TM α := fun d => (.err m, d)
def panic : TM α := fun d => (.panic, d)
def get : TM Dec := fun d => (.ok d, d)

/-- Statements whose errors have no number of bytes. -/
def of (r : DM α) : TM α := fun d =>
  match r d with
  | (.ok a, d') => (.ok a, d')
  | (.err x, d') => (.err (.plain x), d')
  | (.panic, d') => (.panic, d')

/-- `if err != nil { return …, fmt.Errorf("…: %s", err) }` -/
def wrap (m : TM α) : TM α := fun d =>
  match m d with
  | (.ok a, d') => (.ok a, d')
  | (.err x, d') => (.err (.within x), d')
  | (.panic, d') => (.panic, d')

/-- As `repeatM`. -/
def rep (f : TM α) : Nat → TM (List α)
  | 0 => Pure.pure []
  | n + 1 => do
    let a ← f
    let as ← rep f n
    Pure.pure (a :: as)

/-- As `traverseM`. -/
def trav {γ : Type} (f : γ → TM α) : List γ → TM (List α)
  | [] => Pure.pure []
  | c :: cs => do
    let b ← f c
    let bs ← trav f cs
    Pure.pure (b :: bs)

end TM

/-- `ReadByte` (decoder.go:408-420). -/
def readByteNum : TM UInt8 := do
  let d ← TM.get
  if d.remaining < 1 then TM.say (.required 1 d.remaining)
  else TM.of do
    let b ← restM
    match b with
    | [] => M.panic
    | x :: _ => do
      advance 1
      pure x

/-- `ReadUint8` (decoder.go:439-442). -/
def readUint8Num : TM Nat := do
  let b ← readByteNum
  pure b.toNat

/-- `ReadInt8` (decoder.go:444-451). -/
def readInt8Num : TM Int := do
  let b ← readByteNum
  pure (toSigned 8 b.toNat)

/-- `ReadUint16` (decoder.go:453-465). -/
def readUint16Num (o : Order) : TM Nat := do
  let d ← TM.get
  if d.remaining < 2 then TM.say (.required 2 d.remaining)
  else TM.of do
    let b ← restM
    let n ← M.lift (getUint o 2 b)
    advance 2
    pure n

/-- `ReadInt16` (decoder.go:467-474). -/
def readInt16Num (o : Order) : TM Int := do
  let n ← readUint16Num o
  pure (toSigned 16 n)

/-- `ReadUint32` (decoder.go:476-488). -/
def readUint32Num (o : Order) : TM Nat := do
  let d ← TM.get
  if d.remaining < 4 then TM.say (.required 4 d.remaining)
  else TM.of do
    let b ← restM
    let n ← M.lift (getUint o 4 b)
    advance 4
    pure n

/-- `ReadInt32` (decoder.go:490-497). -/
def readInt32Num (o : Order) : TM Int := do
  let n ← readUint32Num o
  pure (toSigned 32 n)

/-- `readNBytes` (decoder.go:281-294) = `ReadNBytes` (319-321) = `ReadBytes` (324-326). -/
def readNBytesNum (n : Int) : TM Bytes := do
  if n = 0 then pure []
  else if n < 0 ∨ n > 0x7FFFFFFF then TM.say (.plain .invalidLen)
  else do
    let d ← TM.get
    if d.pos + n > d.data.length then TM.say (.missing (d.pos + n - d.data.length))
    else TM.of do
      let out ← sliceM n
      advance n
      pure out

/-- `ReadUint64` (decoder.go:499-514). -/
def readUint64Num (o : Order) : TM Nat := do
  let d ← TM.get
  if d.remaining < 8 then TM.say (.required 8 d.remaining)
  else do
    let data ← readNBytesNum 8
    TM.of (M.lift (getUint o 8 data))

/-- `ReadInt64` (decoder.go:516-523). -/
def readInt64Num (o : Order) : TM Int := do
  let n ← readUint64Num o
  pure (toSigned 64 n)

/-- `ReadUint128` (decoder.go:525-547). -/
def readUint128Num (o : Order) : TM (Nat × Nat) := do
  let d ← TM.get
  if d.remaining < 16 then TM.say (.required 16 d.remaining)
  else TM.of do
    let data ← sliceM 16
    let r ← match o with
      | .le => do
        let hi ← M.lift (getUint o 8 (data.drop 8))
        let lo ← M.lift (getUint o 8 (data.take 8))
        pure (lo, hi)
      | .be => do
        let hi ← M.lift (getUint o 8 (data.take 8))
        let lo ← M.lift (getUint o 8 (data.drop 8))
        pure (lo, hi)
    advance 16
    pure r

/-- `ReadInt128` (decoder.go:549-555). -/
def readInt128Num (o : Order) : TM (Nat × Nat) := readUint128Num o

/-- `ReadFloat128` (decoder.go:598-604): "float128: …". -/
def readFloat128Num (o : Order) : TM (Nat × Nat) := (readUint128Num o).wrap

/-- `ReadFloat32` (decoder.go:557-576). -/
def readFloat32Num (o : Order) : TM Nat := do
  let d ← TM.get
  if d.remaining < 4 then TM.say (.required 4 d.remaining)
  else TM.of do
    let b ← restM
    let n ← M.lift (getUint o 4 b)
    advance 4
    if d.enc = .borsh ∧ isNaN32 n then M.err .nan else pure n

/-- `ReadFloat64` (decoder.go:578-596). -/
def readFloat64Num (o : Order) : TM Nat := do
  let d ← TM.get
  if d.remaining < 8 then TM.say (.required 8 d.remaining)
  else TM.of do
    let b ← restM
    let n ← M.lift (getUint o 8 b)
    advance 8
    if d.enc = .borsh ∧ isNaN64 n then M.err .nan else pure n

/-- `ReadLength` (decoder.go:249-279); the messages of `ReadUvarint64` and `ReadCompactU16` have no number of bytes. -/
def readLengthNum : TM Nat := do
  let d ← TM.get
  match d.enc with
  | .bin => do
    let val ← TM.of readUvarint64
    if val > 0x7FFFFFFF then TM.say (.plain .eof) else pure val
  | .borsh => do
    let val ← readUint32Num .le
    if val > 0x7FFFFFFF then TM.say (.plain .eof) else pure val
  | .compactU16 => TM.of readCompactU16
  | .other => TM.panic

/-- `ReadByteSlice` (decoder.go:231-247) behind the length. -/
def sliceBodyNum (length : Nat) : TM Bytes := do
  let d ← TM.get
  if (d.data.length : Int) < d.pos + length then TM.say (.varlen length (d.pos + length - d.data.length))
  else TM.of do
    let out ← sliceM length
    advance length
    pure out

/-- `ReadByteSlice` (decoder.go:231-247). -/
def readByteSliceNum : TM Bytes := do
  let length ← readLengthNum
  sliceBodyNum length

/-- `ReadString` (decoder.go:622-629). -/
def readStringNum : TM Bytes := readByteSliceNum

/-- `SafeReadUTF8String` (decoder.go:606-613). -/
def safeReadUTF8StringNum : TM Bytes := do
  let data ← readByteSliceNum
  pure (fixUtf8 data)

/-- `ReadRustString` (decoder.go:631-648). -/
def readRustStringNum : TM Bytes := do
  let length ← readUint64Num .le
  if length > 0x7FFFFFFF then TM.say (.plain .eof)
  else readNBytesNum length

/-- `SkipBytes` (decoder.go:654-660). -/
def skipBytesNum (count : Nat) : TM Unit := do
  let d ← TM.get
  if toUnsigned 64 d.remaining < count then TM.say (.skip count d.remaining)
  else TM.of (advance (toSigned 64 count))

/-- `discardNBytes` (decoder.go:296-304) = `Discard` (328-330). -/
def discardNum (n : Int) : TM Unit :=
  if n = 0 then pure ()
  else if n < 0 ∨ n > 0x7FFFFFFF then TM.say (.plain .invalidLen)
  else skipBytesNum n.toNat

/-- `Peek` (decoder.go:352-369). -/
def peekNum (n : Int) : TM Bytes := do
  if n < 0 then TM.say (.plain .invalidLen)
  else do
    let d ← TM.get
    if d.remaining < n then TM.say (.required n d.remaining)
    else TM.of (sliceM n)

/-- `ReadTypeID` (decoder.go:332-338) = `ReadDiscriminator` (340-342). -/
def readTypeIDNum : TM Bytes := do
  let disc ← readNBytesNum 8
  pure (typeIDFromBytes disc)

/-- `PeekDiscriminator` (decoder.go:344-350). -/
def peekDiscriminatorNum : TM Bytes := do
  let disc ← peekNum 8
  pure (typeIDFromBytes disc)

/-- `ReadOption` (decoder.go:381-391): "decode: read option, …". -/
def readOptionNum : TM Bool := do
  let b ← readByteNum.wrap
  pure (b != 0)

/-- `ReadCOption` (decoder.go:393-406): "decode: read c-option, …". -/
def readCOptionNum : TM Bool := do
  let b ← (readUint32Num .le).wrap
  if b > 1 then TM.say (.plain .coption) else pure (b != 0)

/-- `ReadBool` (decoder.go:422-437). -/
def readBoolNum : TM Bool := do
  let d ← TM.get
  if d.remaining < 1 then TM.say (.required 1 d.remaining)
  else do
    let b ← readByteNum.wrap
    pure (b != 0)

/-! ### Decode -/

/-- `UnmarshalWithDecoder` of the library types, as `unmarshalLib`; `HexBytes` (types.go:101), `Varint16` (117), `Varuint16` (133) and `Varuint32` (149) wrap the
error. -/
def unmarshalLibNum (l : Lib) (old : Val) : TM Val :=
  match l with
  | .safeString => do let s ← safeReadUTF8StringNum; pure (.str s)
  | .bool => do let b ← readBoolNum; pure (.bool b)
  | .hexBytes => do let b ← readByteSliceNum.wrap; pure (.bytes (some b))
  | .varint16 => do let z ← (TM.of readVarint16).wrap; pure (.int z)
  | .varuint16 => do let n ← (TM.of readUvarint16).wrap; pure (.uint n)
  | .varuint32 => do let n ← (TM.of readUvarint64).wrap; pure (.uint (n % 2 ^ 32))
  | .varint32 => do let z ← TM.of readVarint32; pure (.int z)
  | .jsonFloat64 => do
    let d ← TM.get
    match d.cur with
    | none => TM.panic
    | some o => do let n ← readFloat64Num o; pure (.float n)
  | .int64 => do
    let d ← TM.get
    match d.cur with
    | none => TM.panic
    | some o => do let z ← readInt64Num o; pure (.int z)
  | .uint64 => do
    let d ← TM.get
    match d.cur with
    | none => TM.panic
    | some o => do let n ← readUint64Num o; pure (.uint n)
  | .uint128 => do
    let d ← TM.get
    let r ← readUint128Num (order128 d.cur old.endianness)
    pure (.u128 r.1 r.2 none)
  | .int128 => do
    let d ← TM.get
    let r ← readInt128Num (order128 d.cur old.endianness)
    pure (.u128 r.1 r.2 none)
  | .float128 => do
    let d ← TM.get
    let r ← readFloat128Num (order128 d.cur old.endianness)
    pure (.u128 r.1 r.2 none)
  | .emptyVariant => pure old

/-- As `decScalar` (decoder_bin.go:88-151, decoder_compact-u16.go:87-150, decoder_borsh.go:109-184). -/
def decScalarNum (e : Encoding) (k : Kind) (o : Order) : TM Val :=
  match k with
  | .string => do let s ← (if e = .bin then readRustStringNum else readStringNum); pure (.str s)
  | .uint .w8 => do let n ← readByteNum; pure (.uint n.toNat)
  | .int .w8 => do let z ← readInt8Num; pure (.int z)
  | .int .w16 => do let z ← readInt16Num o; pure (.int z)
  | .int .w32 => do let z ← readInt32Num o; pure (.int z)
  | .int .w64 => do let z ← readInt64Num o; pure (.int z)
  | .uint .w16 => do let n ← readUint16Num o; pure (.uint n)
  | .uint .w32 => do let n ← readUint32Num o; pure (.uint n)
  | .uint .w64 => do let n ← readUint64Num o; pure (.uint n)
  | .f32 => do let n ← readFloat32Num o; pure (.float (f32ViaF64 n))
  | .f64 => do let n ← readFloat64Num o; pure (.float n)
  | .bool => do let b ← readBoolNum; pure (.bool b)
  | _ => TM.panic

/-- As `decPlain`. -/
def decPlainNum (e : Encoding) (k : Kind) (o : Opt) : TM Val :=
  decScalarNum e k (if e = .borsh then .le else o.order)

/-- As `readUintW`. -/
def readUintWNum (w : Width) (o : Order) : TM Nat :=
  match w with
  | .w8 => readUint8Num
  | .w16 => readUint16Num o
  | .w32 => readUint32Num o
  | .w64 => readUint64Num o

/-- As `readUints` (decoder.go:762-960). -/
def readUintsNum (l : Int) (w : Width) : TM (List Val) := do
  let d ← TM.get
  if l * w.bytes > d.remaining then TM.say (.plain .eof)
  else
    match w with
    | .w8 => do
      let buf ← readNBytesNum l
      pure (buf.map fun b => .uint b.toNat)
    | w =>
      if l < 0 then TM.panic
      else do
        let ns ← TM.rep (readUintWNum w .le) l.toNat
        pure (ns.map .uint)

/-- As `readSeqLen` (decoder_bin.go:181,221, decoder_borsh.go:216,260, decoder_compact-u16.go:180,220). -/
def readSeqLenNum (e : Encoding) : TM Nat :=
  match e with
  | .bin => readLengthNum
  | .borsh => readUint32Num .le
  | .compactU16 => TM.of readCompactU16
  | .other => TM.panic

/-- As `readFlag` (decoder_bin.go:61-67, decoder_compact-u16.go:60-66, decoder_borsh.go:61-67): "decode: … isPresent, …". -/
def readFlagNum (e : Encoding) : TM Bool :=
  match e with
  | .bin => do let n ← (readUint32Num .le).wrap; pure (n != 0)
  | .borsh => readOptionNum.wrap
  | _ => do let b ← readByteNum.wrap; pure (b != 0)

/-- As `decField` (decoder_bin.go:44-86, decoder_borsh.go:44-106). -/
def decFieldNum (e : Encoding) (t : Ty) (o : Opt) (old : Val) (core : TM Val) : TM Val := do
  TM.of (setCurD o.order)
  if o.optional then
    if t.asLib.isSome then TM.panic
    else do
      let present ← readFlagNum e
      if present then
        if e = .borsh ∧ o.coptional then
          if t.baseLib then TM.panic
          else do
            let present ← readCOptionNum.wrap
            if present then core else pure (absentBase t)
        else core
      else pure (absentVal t old)
  else if e = .borsh ∧ o.coptional then
    if t.asLib.isSome then TM.panic
    else do
      let present ← readCOptionNum.wrap
      if present then core else pure (absentVal t old)
  else core

/-- As `decStruct` (decoder_borsh.go:291-331). -/
def decStructNum (e : Encoding) (fs : Fields) (fields : TM (List Val)) (nth : Nat → TM (List Val)) : TM Val :=
  if e = .borsh ∧ fs.isEnum then do
    let tag ← readUint8Num
    if tag + 1 ≥ fs.length then TM.say (.plain .enumTooLarge)
    else do
      let vs ← nth (tag + 1)
      pure (.struct (.uint tag :: vs.tail))
  else do
    let vs ← fields
    pure (.struct vs)

mutual
/-- As `decCore` (decoder_bin.go:80-249, decoder_compact-u16.go:79-248, decoder_borsh.go:98-288). -/
def decCoreNum (e : Encoding) : Ty → Opt → Val → TM Val
  | .lib l, _, old => unmarshalLibNum l old
  | .ptr t, o, old => do
    let x ← decCoreNum e t o (old.deref t)
    pure (.ptr (some x))
  | .slice t, o, old => do
    let l : Int ←
      match o.sizeOf with
      | some s => pure s
      | none => do
        let n ← readSeqLenNum e
        pure (n : Int)
    if e = .borsh ∧ l = 0 then pure old
    else do
      let d ← TM.get
      if l > d.remaining then TM.say (.plain .eof)
      else
        match t.uintKind with
        | some w => do
          let xs ← readUintsNum l w
          pure (.seq (some xs))
        | none => do
          let xs ← TM.rep (do TM.of (setCurD .le); decCoreNum e t {} t.zero) l.toNat
          pure (.seq (some xs))
  | .array n t, _, old => do
    match t.uintKind with
    | some w => do
      let xs ← readUintsNum n w
      pure (.arr xs)
    | none => do
      let xs ← TM.trav (fun x => do TM.of (setCurD .le); decCoreNum e t {} x) (old.elems n t)
      pure (.arr xs)
  | .map k t, _, old => do
    let l ← readSeqLenNum e
    if l = 0 then pure old
    else do
      let xs ← TM.rep (do
        TM.of (setCurD .le)
        let x ← decCoreNum e k {} k.zero
        TM.of (setCurD .le)
        let y ← decCoreNum e t {} t.zero
        pure (x, y)) l
      pure (.map (some (xs.foldl (fun m x => setEntry k x m) [])))
  | .struct fs, _, old =>
    decStructNum e fs (decFieldsNum e fs [] false (old.fields fs)) (fun i => decNthNum e fs i (old.fields fs))
  | .iface, _, old => pure old
  | .bool, o, _ => decPlainNum e .bool o
  | .uint w _, o, _ => decPlainNum e (.uint w) o
  | .int w _, o, _ => decPlainNum e (.int w) o
  | .borshEnum, o, _ => decPlainNum e (.uint .w8) o
  | .f32, o, _ => decPlainNum e .f32 o
  | .f64, o, _ => decPlainNum e .f64 o
  | .str, o, _ => decPlainNum e .string o
  | .plainInt, _, _ => TM.say (.plain .unsupported)
  | .plainUint, _, _ => TM.say (.plain .unsupported)
  | .other, _, _ => TM.say (.plain .unsupported)
/-- As `decFields` (decoder_bin.go:252-352, decoder_compact-u16.go:251-351, decoder_borsh.go:333-452): "error while decoding … field: …", except for the
library types in Borsh (decoder_borsh.go:421,430). -/
def decFieldsNum (e : Encoding) : Fields → List (Bytes × Int) → Bool → List Val → TM (List Val)
  | .nil, _, _, _ => pure []
  | .cons _ _ _, _, _, [] => TM.panic
  | .cons m t fs, sm, seen, v :: vs =>
    if m.tag.skip then do
      let rest ← decFieldsNum e fs sm seen vs
      pure (v :: rest)
    else if !m.tag.binExt && seen then TM.panic
    else do
      let atEnd ← TM.of (extensionEnds m)
      if atEnd || !m.exported then do
        let rest ← decFieldsNum e fs sm (seen || m.tag.binExt) vs
        pure (v :: rest)
      else
        match (if e = .borsh then t.directLib else none) with
        | some (l, isPtr) => do
          let x ← unmarshalLibNum l l.zero
          let rest ← decFieldsNum e fs sm (seen || m.tag.binExt) vs
          pure ((if isPtr then .ptr (some x) else x) :: rest)
        | none => do
          let x ← (decFieldNum e t (fieldOpt m sm) v (decCoreNum e t (fieldOpt m sm) v)).wrap
          let sm ← TM.of (recordSize m t x sm)
          let rest ← decFieldsNum e fs sm (seen || m.tag.binExt) vs
          pure (x :: rest)
/-- As `decNth` (decoder_borsh.go:305-306). -/
def decNthNum (e : Encoding) : Fields → Nat → List Val → TM (List Val)
  | .cons _ t _, 0, v :: vs => do
    TM.of (setCurD .le)
    let x ← decCoreNum e t {} v
    pure (x :: vs)
  | .cons _ _ fs, i + 1, v :: vs => do
    let rest ← decNthNum e fs i vs
    pure (v :: rest)
  | _, _, _ => TM.panic
end

/-- `Decode(&x)` (decoder.go:127-138, decoder_bin.go:29-42). -/
def decodeNum (t : Ty) (old : Val) : TM Val := do
  let d ← TM.get
  if d.enc = .other then TM.panic
  else do
    TM.of (setCurD .le)
    decCoreNum d.enc t {} old

end Verif
