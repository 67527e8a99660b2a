import Verif.Model.Decoder
/-!
# encoder.go: the `Encoder` and its primitive writes
-/
namespace Verif

/-- The `io.Writer` behind an encoder: given the chunks it has been handed so far and the next chunk, does
`Write` succeed (`err == nil`)?  Arbitrary, so every failure pattern is covered. -/
abbrev Sink := List Bytes → Bytes → Bool

/-- A writer that never fails (`bytes.Buffer`, `WriteByWrite`, `byteCounter`). -/
def okSink : Sink := fun _ _ => true

/-- `Encoder` (encoder.go:31-38). `log` is the list of chunks passed to `output.Write`, in order.
`cur` is `currentFieldOpt` (only its `Order` is observed: types.go:220,280,340; u128.go:185,253,297). -/
structure Enc where
  enc : Encoding
  count : Nat
  cur : Option Order
  log : List Bytes
  sink : Sink

abbrev EM := M Enc

/-- `NewEncoderWithEncoding` (encoder.go:52-61) for a valid encoding. -/
def Enc.new (enc : Encoding) (sink : Sink := okSink) : Enc :=
  { enc, count := 0, cur := none, log := [], sink }

/-- `NewEncoderWithEncoding` (encoder.go:52-61). -/
def Enc.newWithEncoding (enc : Encoding) (sink : Sink) : Res Enc :=
  if enc.valid then .ok (Enc.new enc sink) else .panic

/-- All bytes handed to the writer. -/
def Enc.out (e : Enc) : Bytes := e.log.flatten

/-- `Written` (encoder.go:98-100). -/
def Enc.written (e : Enc) : Nat := e.count

/-- `toWriter` (encoder.go:88-95) = `Write` (117-123): count first, then write. -/
def toWriter (bytes : Bytes) : EM Unit := fun e =>
  let e' := { e with count := e.count + bytes.length, log := e.log ++ [bytes] }
  if e.sink e.log bytes then (.ok (), e') else (.err .write, e')

/-- `Write` (encoder.go:117-123). -/
def encWrite (bytes : Bytes) : EM Unit := toWriter bytes

/-- `WriteUVarInt` (encoder.go:150-158): `uint64(v)` into an 8-byte buffer. -/
def writeUVarInt (v : Int) : EM Unit := do
  let bs ← M.lift (putUvarint8 (toUnsigned 64 v))
  toWriter bs

/-- `WriteVarInt` (encoder.go:160-168). -/
def writeVarInt (v : Int) : EM Unit := do
  let bs ← M.lift (putVarint8 v)
  toWriter bs

/-- `WriteByte` (encoder.go:170-175). -/
def writeByte (b : UInt8) : EM Unit := toWriter [b]

/-- `WriteBool` (encoder.go:195-204). -/
def writeBool (b : Bool) : EM Unit := writeByte (if b then 1 else 0)

/-- `WriteOption` (encoder.go:177-182). -/
def writeOption (b : Bool) : EM Unit := writeBool b

/-- `WriteUint8` (encoder.go:206-208). -/
def writeUint8 (i : Nat) : EM Unit := writeByte (UInt8.ofNat i)

/-- `WriteInt8` (encoder.go:210-212). -/
def writeInt8 (i : Int) : EM Unit := writeByte (UInt8.ofNat (toUnsigned 8 i))

/-- `WriteUint16` (encoder.go:214-221). -/
def writeUint16 (i : Nat) (o : Order) : EM Unit := toWriter (putUint o 2 i)

/-- `WriteInt16` (encoder.go:223-228). -/
def writeInt16 (i : Int) (o : Order) : EM Unit := writeUint16 (toUnsigned 16 i) o

/-- `WriteUint32` (encoder.go:230-237). -/
def writeUint32 (i : Nat) (o : Order) : EM Unit := toWriter (putUint o 4 i)

/-- `WriteInt32` (encoder.go:239-244). -/
def writeInt32 (i : Int) (o : Order) : EM Unit := writeUint32 (toUnsigned 32 i) o

/-- `WriteUint64` (encoder.go:246-253). -/
def writeUint64 (i : Nat) (o : Order) : EM Unit := toWriter (putUint o 8 i)

/-- `WriteInt64` (encoder.go:255-260). -/
def writeInt64 (i : Int) (o : Order) : EM Unit := writeUint64 (toUnsigned 64 i) o

/-- `WriteUint128` (encoder.go:262-278) for the words `lo`, `hi`; `WriteInt128` (280-296) is identical.
The `default` branch (other byte orders) is in `Model/ByteOrder`. -/
def writeUint128 (lo hi : Nat) (o : Order) : EM Unit :=
  match o with
  | .le => toWriter (putUint .le 8 lo ++ putUint .le 8 hi)
  | .be => toWriter (putUint .be 8 hi ++ putUint .be 8 lo)

/-- `WriteInt128` (encoder.go:280-296). -/
def writeInt128 (lo hi : Nat) (o : Order) : EM Unit :=
  match o with
  | .le => toWriter (putUint .le 8 lo ++ putUint .le 8 hi)
  | .be => toWriter (putUint .be 8 hi ++ putUint .be 8 lo)

/-- `WriteCOption` (encoder.go:184-193). -/
def writeCOption (b : Bool) : EM Unit := writeUint32 (if b then 1 else 0) .le

/-- `WriteFloat32` (encoder.go:298-314), `n` = bit pattern. -/
def writeFloat32 (n : Nat) (o : Order) : EM Unit := do
  let e ← M.get
  if e.enc = .borsh ∧ isNaN32 n then M.err .nan
  else toWriter (putUint o 4 n)

/-- `WriteFloat64` (encoder.go:316-331), `n` = bit pattern. -/
def writeFloat64 (n : Nat) (o : Order) : EM Unit := do
  let e ← M.get
  if e.enc = .borsh ∧ isNaN64 n then M.err .nan
  else toWriter (putUint o 8 n)

/-- `WriteBytes(b, false)` (encoder.go:102-115 without the length branch): nothing is written for empty `b`. -/
def writeRaw (b : Bytes) : EM Unit :=
  if b.length = 0 then pure () else toWriter b

/-- `WriteLength` (encoder.go:125-148).  In the CompactU16 case the error of `EncodeCompactU16Length` is dropped
(line 140) and whatever is in `buf` is written. -/
def writeLength (length : Int) : EM Unit := do
  let e ← M.get
  match e.enc with
  | .bin => writeUVarInt length
  | .borsh => writeUint32 (toUnsigned 32 length) .le
  | .compactU16 => writeRaw (encodeCompactU16Length [] length).2
  | .other => M.panic

/-- `WriteBytes` (encoder.go:102-115). -/
def writeBytes (b : Bytes) (withLength : Bool) : EM Unit :=
  if withLength then do
    writeLength b.length
    writeRaw b
  else writeRaw b

/-- `WriteString` (encoder.go:333-338). -/
def writeString (s : Bytes) : EM Unit := writeBytes s true

/-- `WriteRustString` (encoder.go:340-349). -/
def writeRustString (s : Bytes) : EM Unit := do
  writeUint64 (toUnsigned 64 s.length) .le
  writeBytes s false

/-- `WriteCompactU16` (encoder.go:351-358) = `WriteCompactU16Length` (360-362).  The error is dropped (line 356). -/
def writeCompactU16 (ln : Int) : EM Unit := toWriter (encodeCompactU16Length [] ln).2

end Verif
