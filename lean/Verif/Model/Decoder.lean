import Verif.Model.Bits
import Verif.Model.Compact
import Verif.Model.Varint
import Verif.Model.Utf8
/-!
# decoder.go: the `Decoder` and its primitive reads
-/
namespace Verif

/-- `Encoding` (tags-options.go:84-90); `other` stands for every invalid value (settable by `SetEncoding`). -/
inductive Encoding where
  | bin | compactU16 | borsh | other
  deriving DecidableEq, Repr

/-- `isValidEncoding` (tags-options.go:117-124). -/
def Encoding.valid : Encoding → Bool
  | .other => false
  | _ => true

/-- `Decoder` (decoder.go:72-79).  `cur` is `currentFieldOpt`: nil or the option of the field being decoded, of
which only `Order` is ever observed (types.go:210,270,330; u128.go:168,236,280).  `pos` is an `int` and may be
negative after `SetPosition`. -/
structure Dec where
  data : Bytes
  pos : Int
  cur : Option Order
  enc : Encoding
  deriving DecidableEq, Repr

abbrev DM := M Dec

namespace Dec

/-- `NewDecoderWithEncoding` (decoder.go:100-108) for a valid encoding. -/
def new (data : Bytes) (enc : Encoding) : Dec := { data, pos := 0, cur := none, enc }

/-- `NewDecoderWithEncoding` (decoder.go:100-108): panics for an invalid encoding. -/
def newWithEncoding (data : Bytes) (enc : Encoding) : Res Dec :=
  if enc.valid then .ok (new data enc) else .panic

/-- `Reset` (decoder.go:82-86). -/
def reset (data : Bytes) (d : Dec) : Dec := { d with data := data, pos := 0, cur := none }

/-- `SetEncoding` (decoder.go:111-113). -/
def setEncoding (e : Encoding) (d : Dec) : Dec := { d with enc := e }

/-- `Remaining` (decoder.go:674-676); no 64-bit wrap-around (see DESIGN.md). -/
def remaining (d : Dec) : Int := (d.data.length : Int) - d.pos

/-- `Position` (decoder.go:670-672): `uint(dec.pos)`. -/
def position (d : Dec) : Nat := toUnsigned 64 d.pos

/-- `Len` (decoder.go:678-680). -/
def len (d : Dec) : Nat := d.data.length

/-- `HasRemaining` (decoder.go:682-684). -/
def hasRemaining (d : Dec) : Bool := decide (d.remaining > 0)

end Dec

/-- The Go expression `dec.data[dec.pos:]`: bounds-checked. -/
def restM : DM Bytes := fun d =>
  if 0 ≤ d.pos ∧ d.pos ≤ d.data.length then (.ok (d.data.drop d.pos.toNat), d) else (.panic, d)

/-- The Go expression `dec.data[dec.pos : dec.pos+n]`: bounds-checked. -/
def sliceM (n : Int) : DM Bytes := fun d =>
  if 0 ≤ d.pos ∧ 0 ≤ n ∧ d.pos + n ≤ d.data.length
  then (.ok ((d.data.drop d.pos.toNat).take n.toNat), d) else (.panic, d)

/-- `dec.pos += n` -/
def advance (n : Int) : DM Unit := M.modify fun d => { d with pos := d.pos + n }

/-- `ReadUvarint64` (decoder.go:159-169). -/
def readUvarint64 : DM Nat := do
  let b ← restM
  let (l, read) := goUvarint b
  if read ≤ 0 then M.err .varint
  else do
    advance read
    pure l

/-- `ReadVarint64` (decoder.go:171-181). -/
def readVarint64 : DM Int := do
  let b ← restM
  let (l, read) := goVarint b
  if read ≤ 0 then M.err .varint
  else do
    advance read
    pure l

/-- `ReadVarint32` (decoder.go:183-193): `int32(n)`. -/
def readVarint32 : DM Int := do
  let n ← readVarint64
  pure (toSigned 32 (toUnsigned 32 n))

/-- `ReadUvarint32` (decoder.go:195-205): `uint32(n)`. -/
def readUvarint32 : DM Nat := do
  let n ← readUvarint64
  pure (n % 2 ^ 32)

/-- `ReadVarint16` (decoder.go:207-217): `int16(n)`. -/
def readVarint16 : DM Int := do
  let n ← readVarint64
  pure (toSigned 16 (toUnsigned 16 n))

/-- `ReadUvarint16` (decoder.go:219-229): `uint16(n)`. -/
def readUvarint16 : DM Nat := do
  let n ← readUvarint64
  pure (n % 2 ^ 16)

/-- `ReadByte` (decoder.go:408-420). -/
def readByte : DM UInt8 := do
  let d ← M.get
  if d.remaining < 1 then M.err .notEnough
  else do
    let b ← restM
    match b with
    | [] => M.panic
    | x :: _ => do
      advance 1
      pure x

/-- `ReadUint8` (decoder.go:439-442). -/
def readUint8 : DM Nat := do
  let b ← readByte
  pure b.toNat

/-- `ReadInt8` (decoder.go:444-451). -/
def readInt8 : DM Int := do
  let b ← readByte
  pure (toSigned 8 b.toNat)

/-- `ReadUint16` (decoder.go:453-465). -/
def readUint16 (o : Order) : DM Nat := do
  let d ← M.get
  if d.remaining < 2 then M.err .notEnough
  else do
    let b ← restM
    let n ← M.lift (getUint o 2 b)
    advance 2
    pure n

/-- `ReadInt16` (decoder.go:467-474). -/
def readInt16 (o : Order) : DM Int := do
  let n ← readUint16 o
  pure (toSigned 16 n)

/-- `ReadUint32` (decoder.go:476-488). -/
def readUint32 (o : Order) : DM Nat := do
  let d ← M.get
  if d.remaining < 4 then M.err .notEnough
  else do
    let b ← restM
    let n ← M.lift (getUint o 4 b)
    advance 4
    pure n

/-- `ReadInt32` (decoder.go:490-497). -/
def readInt32 (o : Order) : DM Int := do
  let n ← readUint32 o
  pure (toSigned 32 n)

/-- `readNBytes` (decoder.go:281-294) = `ReadNBytes` (319-321) = `ReadBytes` (324-326). -/
def readNBytes (n : Int) : DM Bytes := do
  if n = 0 then pure []
  else if n < 0 ∨ n > 0x7FFFFFFF then M.err .invalidLen
  else do
    let d ← M.get
    if d.pos + n > d.data.length then M.err .notEnough
    else do
      let out ← sliceM n
      advance n
      pure out

/-- `ReadUint64` (decoder.go:499-514). -/
def readUint64 (o : Order) : DM Nat := do
  let d ← M.get
  if d.remaining < 8 then M.err .notEnough
  else do
    let data ← readNBytes 8
    M.lift (getUint o 8 data)

/-- `ReadInt64` (decoder.go:516-523). -/
def readInt64 (o : Order) : DM Int := do
  let n ← readUint64 o
  pure (toSigned 64 n)

/-- `ReadUint128` (decoder.go:525-547), result `(Lo, Hi)`. -/
def readUint128 (o : Order) : DM (Nat × Nat) := do
  let d ← M.get
  if d.remaining < 16 then M.err .notEnough
  else do
    let data ← sliceM 16
    let r ← match o with
      | .le => do
        let hi ← M.lift (getUint o 8 (data.drop 8))
        let lo ← M.lift (getUint o 8 (data.take 8))
        pure (lo, hi)
      | .be => do
        let hi ← M.lift (getUint o 8 (data.take 8))
        let lo ← M.lift (getUint o 8 (data.drop 8))
        pure (lo, hi)
    advance 16
    pure r

/-- `ReadInt128` (decoder.go:549-555): same `(Lo, Hi)` words. -/
def readInt128 (o : Order) : DM (Nat × Nat) := readUint128 o

/-- `ReadFloat128` (decoder.go:598-604): same `(Lo, Hi)` words. -/
def readFloat128 (o : Order) : DM (Nat × Nat) := readUint128 o

/-- `ReadFloat32` (decoder.go:557-576): the bit pattern. NaN is refused in Borsh after the cursor moved. -/
def readFloat32 (o : Order) : DM Nat := do
  let d ← M.get
  if d.remaining < 4 then M.err .notEnough
  else do
    let b ← restM
    let n ← M.lift (getUint o 4 b)
    advance 4
    if d.enc = .borsh ∧ isNaN32 n then M.err .nan else pure n

/-- `ReadFloat64` (decoder.go:578-596): the bit pattern. -/
def readFloat64 (o : Order) : DM Nat := do
  let d ← M.get
  if d.remaining < 8 then M.err .notEnough
  else do
    let b ← restM
    let n ← M.lift (getUint o 8 b)
    advance 8
    if d.enc = .borsh ∧ isNaN64 n then M.err .nan else pure n

/-- `ReadCompactU16` (decoder.go:372-379) = `ReadCompactU16Length` (650-652).
On error `DecodeCompactU16` returns size 0, so the cursor does not move. -/
def readCompactU16 : DM Nat := do
  let b ← restM
  match decodeCompactU16 b with
  | .ok (out, size) => do
    advance size
    pure out
  | .err e => M.err e
  | .panic => M.panic

/-- `ReadLength` (decoder.go:249-279). -/
def readLength : DM Nat := do
  let d ← M.get
  match d.enc with
  | .bin => do
    let val ← readUvarint64
    if val > 0x7FFFFFFF then M.err .eof else pure val
  | .borsh => do
    let val ← readUint32 .le
    if val > 0x7FFFFFFF then M.err .eof else pure val
  | .compactU16 => readCompactU16
  | .other => M.panic

/-- `ReadByteSlice` (decoder.go:231-247). -/
def readByteSlice : DM Bytes := do
  let length ← readLength
  let d ← M.get
  if (d.data.length : Int) < d.pos + length then M.err .notEnough
  else do
    let out ← sliceM length
    advance length
    pure out

/-- `ReadString` (decoder.go:622-629). -/
def readString : DM Bytes := readByteSlice

/-- `SafeReadUTF8String` (decoder.go:606-613). -/
def safeReadUTF8String : DM Bytes := do
  let data ← readByteSlice
  pure (fixUtf8 data)

/-- `ReadRustString` (decoder.go:631-648). -/
def readRustString : DM Bytes := do
  let length ← readUint64 .le
  if length > 0x7FFFFFFF then M.err .eof
  else readNBytes length

/-- `Read(buf)` with `len(buf) = k` (decoder.go:306-317): the bytes copied into `buf`.
`numCopied != len(buf)` (313-315) is the second error branch. -/
def readInto (k : Nat) : DM Bytes := do
  let d ← M.get
  if d.pos + k > d.data.length then M.err .shortBuffer
  else do
    let b ← restM
    let copied := b.take k
    advance copied.length
    if copied.length ≠ k then M.err .eof else pure copied

/-- `SkipBytes` (decoder.go:654-660), `count` a `uint`. -/
def skipBytes (count : Nat) : DM Unit := do
  let d ← M.get
  if toUnsigned 64 d.remaining < count then M.err .notEnough
  else advance (toSigned 64 count)

/-- `discardNBytes` (decoder.go:296-304) = `Discard` (328-330). -/
def discard (n : Int) : DM Unit :=
  if n = 0 then pure ()
  else if n < 0 ∨ n > 0x7FFFFFFF then M.err .invalidLen
  else skipBytes n.toNat

/-- `Peek` (decoder.go:352-369). -/
def peek (n : Int) : DM Bytes := do
  if n < 0 then M.err .invalidLen
  else do
    let d ← M.get
    if d.remaining < n then M.err .notEnough
    else sliceM n

/-- `TypeIDFromBytes` (variant.go:81-85): `copy(id[:], slice)` into a zeroed `[8]byte`. -/
def typeIDFromBytes (slice : Bytes) : Bytes :=
  slice.take 8 ++ List.replicate (8 - slice.length) 0

/-- `ReadTypeID` (decoder.go:332-338) = `ReadDiscriminator` (340-342). -/
def readTypeID : DM Bytes := do
  let disc ← readNBytes 8
  pure (typeIDFromBytes disc)

/-- `PeekDiscriminator` (decoder.go:344-350). -/
def peekDiscriminator : DM Bytes := do
  let disc ← peek 8
  pure (typeIDFromBytes disc)

/-- `SetPosition` (decoder.go:662-668), `idx` a `uint`. -/
def setPosition (idx : Nat) : DM Unit := do
  let d ← M.get
  if toSigned 64 idx < d.data.length then M.modify fun d => { d with pos := toSigned 64 idx }
  else M.err .badPos

/-- `ReadOption` (decoder.go:381-391). -/
def readOption : DM Bool := do
  let b ← readByte
  pure (b != 0)

/-- `ReadCOption` (decoder.go:393-406). -/
def readCOption : DM Bool := do
  let b ← readUint32 .le
  if b > 1 then M.err .coption else pure (b != 0)

/-- `ReadBool` (decoder.go:422-437).  The inner error of `ReadByte` cannot occur after the size check; it would be
returned with `out = false`. -/
def readBool : DM Bool := do
  let d ← M.get
  if d.remaining < 1 then M.err .notEnough
  else do
    let b ← readByte
    pure (b != 0)

end Verif
