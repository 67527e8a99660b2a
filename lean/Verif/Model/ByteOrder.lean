import Verif.Model.Decoder
import Verif.Model.Encoder
import Verif.Model.U128
/-!
# Calls with any `binary.ByteOrder`

The calls that take a byte order take any value of the interface type `binary.ByteOrder`: nil, `binary.LittleEndian`,
`binary.BigEndian`, `binary.NativeEndian` (a type of its own since Go 1.21) or an implementation by the caller.  The other
files have the two constants only; `Props/ByteOrders` shows that these are the same calls.
-/
namespace Verif

/-- An implementation of `binary.ByteOrder` that is neither `binary.LittleEndian` nor `binary.BigEndian`: the result of `Uint16`, `Uint32`,
`Uint64` (`k` = 2, 4, 8) on a slice and the content of a zeroed buffer of `k` bytes after `PutUint16`, `PutUint32`, `PutUint64`;
`none` is a panic.  Methods that change or keep the slices are not modelled. -/
structure OrderMethods where
  get : (k : Nat) → Bytes → Option Nat
  put : (k : Nat) → Nat → Option Bytes

/-- A value of type `binary.ByteOrder`. -/
inductive ByteOrder where
  | nil
  | std (o : Order)
  | other (m : OrderMethods)

/-- `order.UintN(b)`; a method call on a nil interface panics. -/
def ByteOrder.get (o : ByteOrder) (k : Nat) (b : Bytes) : Res Nat :=
  match o with
  | .nil => .panic
  | .std o => getUint o k b
  | .other m => match m.get k b with | some v => .ok v | none => .panic

/-- `order.PutUintN(buf, v)` on a new buffer: its content. -/
def ByteOrder.put (o : ByteOrder) (k v : Nat) : Res Bytes :=
  match o with
  | .nil => .panic
  | .std o => .ok (putUint o k v)
  | .other m => match m.put k v with | some b => .ok b | none => .panic

/-- `order == binary.LittleEndian`: interfaces of different dynamic types are different. -/
def ByteOrder.isLE : ByteOrder → Bool
  | .std .le => true
  | _ => false

/-- `order == binary.BigEndian`. -/
def ByteOrder.isBE : ByteOrder → Bool
  | .std .be => true
  | _ => false

/-- `ReadUint16` (decoder.go:453-465). -/
def readUint16O (o : ByteOrder) : DM Nat := do
  let d ← M.get
  if d.remaining < 2 then M.err .notEnough
  else do
    let b ← restM
    let n ← M.lift (o.get 2 b)
    advance 2
    pure n

/-- `ReadInt16` (decoder.go:467-474). -/
def readInt16O (o : ByteOrder) : DM Int := do
  let n ← readUint16O o
  pure (toSigned 16 n)

/-- `ReadUint32` (decoder.go:476-488). -/
def readUint32O (o : ByteOrder) : DM Nat := do
  let d ← M.get
  if d.remaining < 4 then M.err .notEnough
  else do
    let b ← restM
    let n ← M.lift (o.get 4 b)
    advance 4
    pure n

/-- `ReadInt32` (decoder.go:490-497). -/
def readInt32O (o : ByteOrder) : DM Int := do
  let n ← readUint32O o
  pure (toSigned 32 n)

/-- `ReadUint64` (decoder.go:499-514): the cursor moves before the byte order is asked. -/
def readUint64O (o : ByteOrder) : DM Nat := do
  let d ← M.get
  if d.remaining < 8 then M.err .notEnough
  else do
    let data ← readNBytes 8
    M.lift (o.get 8 data)

/-- `ReadInt64` (decoder.go:516-523). -/
def readInt64O (o : ByteOrder) : DM Int := do
  let n ← readUint64O o
  pure (toSigned 64 n)

/-- `ReadUint128` (decoder.go:525-547), `ReadInt128` (549-555), `ReadFloat128` (598-604), result `(Lo, Hi)`: the high word comes second
only if the order is `binary.LittleEndian` itself. -/
def readUint128O (o : ByteOrder) : DM (Nat × Nat) := do
  let d ← M.get
  if d.remaining < 16 then M.err .notEnough
  else do
    let data ← sliceM 16
    let r ← if o.isLE then do
        let hi ← M.lift (o.get 8 (data.drop 8))
        let lo ← M.lift (o.get 8 (data.take 8))
        pure (lo, hi)
      else do
        let hi ← M.lift (o.get 8 (data.take 8))
        let lo ← M.lift (o.get 8 (data.drop 8))
        pure (lo, hi)
    advance 16
    pure r

/-- `ReadFloat32` (decoder.go:557-576). -/
def readFloat32O (o : ByteOrder) : DM Nat := do
  let d ← M.get
  if d.remaining < 4 then M.err .notEnough
  else do
    let b ← restM
    let n ← M.lift (o.get 4 b)
    advance 4
    if d.enc = .borsh ∧ isNaN32 n then M.err .nan else pure n

/-- `ReadFloat64` (decoder.go:578-596). -/
def readFloat64O (o : ByteOrder) : DM Nat := do
  let d ← M.get
  if d.remaining < 8 then M.err .notEnough
  else do
    let b ← restM
    let n ← M.lift (o.get 8 b)
    advance 8
    if d.enc = .borsh ∧ isNaN64 n then M.err .nan else pure n

/-- `WriteUint16` (encoder.go:214-221). -/
def writeUint16O (i : Nat) (o : ByteOrder) : EM Unit := do
  let b ← M.lift (o.put 2 i)
  toWriter b

/-- `WriteInt16` (encoder.go:223-228). -/
def writeInt16O (i : Int) (o : ByteOrder) : EM Unit := writeUint16O (toUnsigned 16 i) o

/-- `WriteUint32` (encoder.go:230-237). -/
def writeUint32O (i : Nat) (o : ByteOrder) : EM Unit := do
  let b ← M.lift (o.put 4 i)
  toWriter b

/-- `WriteInt32` (encoder.go:239-244). -/
def writeInt32O (i : Int) (o : ByteOrder) : EM Unit := writeUint32O (toUnsigned 32 i) o

/-- `WriteUint64` (encoder.go:246-253). -/
def writeUint64O (i : Nat) (o : ByteOrder) : EM Unit := do
  let b ← M.lift (o.put 8 i)
  toWriter b

/-- `WriteInt64` (encoder.go:255-260). -/
def writeInt64O (i : Int) (o : ByteOrder) : EM Unit := writeUint64O (toUnsigned 64 i) o

/-- `WriteUint128` (encoder.go:262-278) and `WriteInt128` (280-296), with the `default` branch. -/
def writeUint128O (lo hi : Nat) (o : ByteOrder) : EM Unit :=
  if o.isLE then do
    let a ← M.lift (o.put 8 lo)
    let b ← M.lift (o.put 8 hi)
    toWriter (a ++ b)
  else if o.isBE then do
    let a ← M.lift (o.put 8 hi)
    let b ← M.lift (o.put 8 lo)
    toWriter (a ++ b)
  else M.err .byteOrder

/-- `WriteFloat32` (encoder.go:298-314). -/
def writeFloat32O (n : Nat) (o : ByteOrder) : EM Unit := do
  let e ← M.get
  if e.enc = .borsh ∧ isNaN32 n then M.err .nan
  else do
    let b ← M.lift (o.put 4 n)
    toWriter b

/-- `WriteFloat64` (encoder.go:316-331). -/
def writeFloat64O (n : Nat) (o : ByteOrder) : EM Unit := do
  let e ← M.get
  if e.enc = .borsh ∧ isNaN64 n then M.err .nan
  else do
    let b ← M.lift (o.put 8 n)
    toWriter b

/-- `getByteOrder` (u128.go:48-60) of a 128-bit value with this `Endianness`. -/
def ByteOrder.orDefault : ByteOrder → ByteOrder
  | .nil => .std .le
  | o => o

/-- `Uint128.Bytes` (u128.go:62-74) of a value with this `Endianness`. -/
def u128BytesO (lo hi : Nat) (endianness : ByteOrder) : Res Bytes :=
  let o := endianness.orDefault
  if o.isLE then
    match o.put 8 lo, o.put 8 hi with
    | .ok a, .ok b => .ok (reverseBytes (a ++ b))
    | _, _ => .panic
  else
    match o.put 8 hi, o.put 8 lo with
    | .ok a, .ok b => .ok (a ++ b)
    | _, _ => .panic

/-- `MarshalWithEncoder` of the 128-bit types (u128.go:181-190, 250-258, 294-302): the field's order if a field is being encoded. -/
def marshal128O (lo hi : Nat) (endianness : ByteOrder) : EM Unit := do
  let e ← M.get
  match e.cur with
  | some o => writeUint128O lo hi (.std o)
  | none => writeUint128O lo hi endianness.orDefault

end Verif
