import Verif.Model.Reader
/-!
# decoder.go, compact-u16.go: both results of a read

The reads of `Verif.Model.Decoder` end in a value or in an error.  In Go they return two results, and a caller who looks at the first one although the
second one is not nil sees something too.  Here the reads are written down once more, statement by statement, with both results; several of them go on
after an error, and several return what another call returned along with an error.

`DM` is used for the outcomes `ok` and `panic` only.  A `[]byte` is `none` for nil (the buffer of the decoder is not nil); a string, a `TypeID` and an
array of bytes are `Bytes`.
-/
namespace Verif

/-- `ReadUvarint64` (decoder.go:159-169): `return l, ErrVarIntBufferSize`. -/
def readUvarint64B : DM (Nat × Option Err) := do
  let b ← restM
  let (l, read) := goUvarint b
  if read ≤ 0 then pure (l, some .varint)
  else do
    advance read
    pure (l, none)

/-- `ReadVarint64` (decoder.go:171-181). -/
def readVarint64B : DM (Int × Option Err) := do
  let b ← restM
  let (l, read) := goVarint b
  if read ≤ 0 then pure (l, some .varint)
  else do
    advance read
    pure (l, none)

/-- `ReadVarint32` (decoder.go:183-193): `return out, err`, `out` not yet set. -/
def readVarint32B : DM (Int × Option Err) := do
  let (n, e) ← readVarint64B
  if e ≠ none then pure (0, e) else pure (toSigned 32 (toUnsigned 32 n), none)

/-- `ReadUvarint32` (decoder.go:195-205). -/
def readUvarint32B : DM (Nat × Option Err) := do
  let (n, e) ← readUvarint64B
  if e ≠ none then pure (0, e) else pure (n % 2 ^ 32, none)

/-- `ReadVarint16` (decoder.go:207-217). -/
def readVarint16B : DM (Int × Option Err) := do
  let (n, e) ← readVarint64B
  if e ≠ none then pure (0, e) else pure (toSigned 16 (toUnsigned 16 n), none)

/-- `ReadUvarint16` (decoder.go:219-229). -/
def readUvarint16B : DM (Nat × Option Err) := do
  let (n, e) ← readUvarint64B
  if e ≠ none then pure (0, e) else pure (n % 2 ^ 16, none)

/-- `ReadByte` (decoder.go:408-420). -/
def readByteB : DM (UInt8 × Option Err) := do
  let d ← M.get
  if d.remaining < 1 then pure (0, some .notEnough)
  else do
    let b ← restM
    match b with
    | [] => M.panic
    | x :: _ => do
      advance 1
      pure (x, none)

/-- `ReadUint8` (decoder.go:439-442): both results of `ReadByte`. -/
def readUint8B : DM (Nat × Option Err) := do
  let (b, e) ← readByteB
  pure (b.toNat, e)

/-- `ReadInt8` (decoder.go:444-451): converts before the error is looked at. -/
def readInt8B : DM (Int × Option Err) := do
  let (b, e) ← readByteB
  pure (toSigned 8 b.toNat, e)

/-- `ReadBool` (decoder.go:422-437): goes on after an error of `ReadByte`. -/
def readBoolB : DM (Bool × Option Err) := do
  let d ← M.get
  if d.remaining < 1 then pure (false, some .notEnough)
  else do
    let (b, e) ← readByteB
    pure (b != 0, e)

/-- `ReadOption` (decoder.go:381-391). -/
def readOptionB : DM (Bool × Option Err) := do
  let (b, e) ← readByteB
  if e ≠ none then pure (false, e) else pure (b != 0, none)

/-- The size check, `order.UintN(dec.data[dec.pos:])` and `dec.pos += n` of `ReadUint16` (decoder.go:453-465) for `n` = 2 and `ReadUint32`
(decoder.go:476-488) for `n` = 4. -/
def readFixedB (o : Order) (n : Nat) : DM (Nat × Option Err) := do
  let d ← M.get
  if d.remaining < n then pure (0, some .notEnough)
  else do
    let b ← restM
    let out ← M.lift (getUint o n b)
    advance n
    pure (out, none)

/-- `ReadUint16` (decoder.go:453-465). -/
def readUint16B (o : Order) : DM (Nat × Option Err) := readFixedB o 2

/-- `ReadUint32` (decoder.go:476-488). -/
def readUint32B (o : Order) : DM (Nat × Option Err) := readFixedB o 4

/-- `ReadInt16` (decoder.go:467-474): converts before the error is looked at. -/
def readInt16B (o : Order) : DM (Int × Option Err) := do
  let (n, e) ← readUint16B o
  pure (toSigned 16 n, e)

/-- `ReadInt32` (decoder.go:490-497): likewise. -/
def readInt32B (o : Order) : DM (Int × Option Err) := do
  let (n, e) ← readUint32B o
  pure (toSigned 32 n, e)

/-- `ReadCOption` (decoder.go:393-406). -/
def readCOptionB : DM (Bool × Option Err) := do
  let (b, e) ← readUint32B .le
  if e ≠ none then pure (false, e)
  else if b > 1 then pure (false, some .coption)
  else pure (b != 0, none)

/-- `readNBytes` (decoder.go:281-294) = `ReadNBytes` (319-321) = `ReadBytes` (324-326). -/
def readNBytesB (n : Int) : DM (Option Bytes × Option Err) := do
  if n = 0 then pure (some [], none)
  else if n < 0 ∨ n > 0x7FFFFFFF then pure (none, some .invalidLen)
  else do
    let d ← M.get
    if d.pos + n > d.data.length then pure (none, some .notEnough)
    else do
      let out ← sliceM n
      advance n
      pure (some out, none)

/-- `ReadUint64` (decoder.go:499-514).  `order.Uint64` of a nil slice panics. -/
def readUint64B (o : Order) : DM (Nat × Option Err) := do
  let d ← M.get
  if d.remaining < 8 then pure (0, some .notEnough)
  else do
    let (data, e) ← readNBytesB 8
    if e ≠ none then pure (0, e)
    else do
      let out ← M.lift (getUint o 8 (data.getD []))
      pure (out, none)

/-- `ReadInt64` (decoder.go:516-523): converts before the error is looked at. -/
def readInt64B (o : Order) : DM (Int × Option Err) := do
  let (n, e) ← readUint64B o
  pure (toSigned 64 n, e)

/-- `ReadUint128` (decoder.go:525-547), `(Lo, Hi)`. -/
def readUint128B (o : Order) : DM ((Nat × Nat) × Option Err) := do
  let d ← M.get
  if d.remaining < 16 then pure ((0, 0), some .notEnough)
  else do
    let data ← sliceM 16
    let r ← match o with
      | .le => do
        let hi ← M.lift (getUint o 8 (data.drop 8))
        let lo ← M.lift (getUint o 8 (data.take 8))
        pure (lo, hi)
      | .be => do
        let hi ← M.lift (getUint o 8 (data.take 8))
        let lo ← M.lift (getUint o 8 (data.drop 8))
        pure (lo, hi)
    advance 16
    pure (r, none)

/-- `ReadInt128` (decoder.go:549-555): a bare `return`, `out` not set. -/
def readInt128B (o : Order) : DM ((Nat × Nat) × Option Err) := do
  let (v, e) ← readUint128B o
  if e ≠ none then pure ((0, 0), e) else pure (v, none)

/-- `ReadFloat128` (decoder.go:598-604): `return out, …`, `out` not set. -/
def readFloat128B (o : Order) : DM ((Nat × Nat) × Option Err) := do
  let (v, e) ← readUint128B o
  if e ≠ none then pure ((0, 0), e) else pure (v, none)

/-- `ReadFloat32` (decoder.go:557-576): the bits; `out` is set when NaN is refused, and `return 0, …` takes it back. -/
def readFloat32B (o : Order) : DM (Nat × Option Err) := do
  let d ← M.get
  if d.remaining < 4 then pure (0, some .notEnough)
  else do
    let b ← restM
    let out ← M.lift (getUint o 4 b)
    advance 4
    if d.enc = .borsh ∧ isNaN32 out then pure (0, some .nan) else pure (out, none)

/-- `ReadFloat64` (decoder.go:578-596). -/
def readFloat64B (o : Order) : DM (Nat × Option Err) := do
  let d ← M.get
  if d.remaining < 8 then pure (0, some .notEnough)
  else do
    let b ← restM
    let out ← M.lift (getUint o 8 b)
    advance 8
    if d.enc = .borsh ∧ isNaN64 out then pure (0, some .nan) else pure (out, none)

/-- The loop of `DecodeCompactU16` (compact-u16.go:48-69): at its exit `(ln, size)`, or what is returned from inside it. -/
def decodeCompactLoopB (ln nth : Nat) : Nat → Bytes → Except (Nat × Nat × Err) (Nat × Nat)
  | 0, _ => .ok (ln, nth)
  | fuel + 1, bytes =>
    match bytes with
    | [] => .error (0, 0, .eof)
    | elem :: rest =>
      if elem = 0 ∧ nth ≠ 0 then .error (0, 0, .alias)
      else if nth = 2 ∧ elem &&& 0x80 ≠ 0 then .error (0, 0, .continues)
      else if elem &&& 0x80 = 0 then .ok (ln ||| ((elem &&& 0x7f).toNat <<< (nth * 7)), nth + 1)
      else decodeCompactLoopB (ln ||| ((elem &&& 0x7f).toNat <<< (nth * 7))) (nth + 1) fuel rest

/-- `DecodeCompactU16` (compact-u16.go:47-79): its three results. -/
def decodeCompactU16B (bytes : Bytes) : Nat × Nat × Option Err :=
  match decodeCompactLoopB 0 0 3 bytes with
  | .error (ln, size, e) => (ln, size, some e)
  | .ok (ln, size) =>
    if size = 0 ∨ size > 3 then (0, 0, some .badCompact)
    else if ln > 65535 then (0, 0, some .badCompact)
    else (ln, size, none)

/-- `ReadCompactU16` (decoder.go:372-379) = `ReadCompactU16Length` (650-652): `dec.pos += size` whether there is an error or not. -/
def readCompactU16B : DM (Nat × Option Err) := do
  let b ← restM
  let (out, size, e) := decodeCompactU16B b
  advance size
  pure (out, e)

/-- `ReadLength` (decoder.go:249-279). -/
def readLengthB : DM (Nat × Option Err) := do
  let d ← M.get
  match d.enc with
  | .bin => do
    let (val, e) ← readUvarint64B
    if e ≠ none then pure (0, e) else if val > 0x7FFFFFFF then pure (0, some .eof) else pure (val, none)
  | .borsh => do
    let (val, e) ← readUint32B .le
    if e ≠ none then pure (0, e) else if val > 0x7FFFFFFF then pure (0, some .eof) else pure (val, none)
  | .compactU16 => do
    let (val, e) ← readCompactU16B
    if e ≠ none then pure (0, e) else pure (val, none)
  | .other => M.panic

/-- `ReadByteSlice` (decoder.go:231-247). -/
def readByteSliceB : DM (Option Bytes × Option Err) := do
  let (length, e) ← readLengthB
  if e ≠ none then pure (none, e)
  else do
    let d ← M.get
    if (d.data.length : Int) < d.pos + length then pure (none, some .notEnough)
    else do
      let out ← sliceM length
      advance length
      pure (some out, none)

/-- `ReadString` (decoder.go:622-629): `string(data)` of whatever came back, also of nil. -/
def readStringB : DM (Bytes × Option Err) := do
  let (data, e) ← readByteSliceB
  pure (data.getD [], e)

/-- `SafeReadUTF8String` (decoder.go:606-613): `strings.Map` of whatever came back. -/
def safeReadUTF8StringB : DM (Bytes × Option Err) := do
  let (data, e) ← readByteSliceB
  pure (fixUtf8 (data.getD []), e)

/-- `ReadRustString` (decoder.go:631-648). -/
def readRustStringB : DM (Bytes × Option Err) := do
  let (length, e) ← readUint64B .le
  if e ≠ none then pure ([], e)
  else if length > 0x7FFFFFFF then pure ([], some .eof)
  else do
    let (data, e) ← readNBytesB length
    if e ≠ none then pure ([], e) else pure (data.getD [], none)

/-- `Peek` (decoder.go:352-369). -/
def peekB (n : Int) : DM (Option Bytes × Option Err) := do
  if n < 0 then pure (none, some .invalidLen)
  else do
    let d ← M.get
    if d.remaining < n then pure (none, some .notEnough)
    else do
      let out ← sliceM n
      pure (some out, none)

/-- `ReadTypeID` (decoder.go:332-338) = `ReadDiscriminator` (340-342): `return TypeID{}, err`. -/
def readTypeIDB : DM (Bytes × Option Err) := do
  let (disc, e) ← readNBytesB 8
  if e ≠ none then pure (List.replicate 8 0, e) else pure (typeIDFromBytes (disc.getD []), none)

/-- `PeekDiscriminator` (decoder.go:344-350). -/
def peekDiscriminatorB : DM (Bytes × Option Err) := do
  let (disc, e) ← peekB 8
  if e ≠ none then pure (List.replicate 8 0, e) else pure (typeIDFromBytes (disc.getD []), none)

/-- `Read(buf)` with `len(buf) = k` (decoder.go:306-317): the first result is the number of bytes; what is in `buf` is in `readInto`. -/
def readB (k : Nat) : DM (Nat × Option Err) := do
  let d ← M.get
  if d.pos + k > d.data.length then pure (0, some .shortBuffer)
  else do
    let b ← restM
    let numCopied := (b.take k).length
    advance numCopied
    if numCopied ≠ k then pure (0, some .eof) else pure (k, none)

/-- `DecodeCompactU16LengthFromByteReader` (compact-u16.go:82-114): the loop. -/
def byteReaderLoopB {σ ε : Type} (r : ByteReader σ ε) (ln nth : Nat) : Nat → σ → Except (Nat × (ε ⊕ Err)) (Nat × Nat) × σ
  | 0, s => (.ok (ln, nth), s)
  | fuel + 1, s =>
    match r s with
    | (.error x, s') => (.error (0, .inl x), s')
    | (.ok elem, s') =>
      if elem = 0 ∧ nth ≠ 0 then (.error (0, .inr .alias), s')
      else if nth = 2 ∧ elem &&& 0x80 ≠ 0 then (.error (0, .inr .continues), s')
      else if elem &&& 0x80 = 0 then (.ok (ln ||| ((elem &&& 0x7f).toNat <<< (nth * 7)), nth + 1), s')
      else byteReaderLoopB r (ln ||| ((elem &&& 0x7f).toNat <<< (nth * 7))) (nth + 1) fuel s'

/-- `DecodeCompactU16LengthFromByteReader` (compact-u16.go:82-114): its two results. -/
def decodeCompactFromByteReaderB {σ ε : Type} (r : ByteReader σ ε) (s : σ) : (Nat × Option (ε ⊕ Err)) × σ :=
  match byteReaderLoopB r 0 0 3 s with
  | (.error (ln, e), s') => ((ln, some e), s')
  | (.ok (ln, size), s') =>
    if size = 0 ∨ size > 3 then ((0, some (.inr .badCompact)), s')
    else if ln > 65535 then ((0, some (.inr .badCompact)), s')
    else ((ln, none), s')

end Verif
