import Verif.Model.Types
/-!
# The reflection encoder: encoder_bin.go, encoder_borsh.go, encoder_compact-u16.go, and the library marshalers

The Bin and CompactU16 encoders differ only in the optional flag, the string format and the length prefix; the Borsh
encoder differs in more places.  One definition covers the three, taking the encoding as a parameter.
-/
namespace Verif

/-- `e.currentFieldOpt = opt` (encoder_bin.go:32, encoder_borsh.go:70). -/
def setCurE (o : Order) : EM Unit := M.modify fun e => { e with cur := some o }

/-- `float32(rv.Float())` for a `float32` value: the conversion to `float64` and back sets the quiet bit of a
signalling NaN and changes nothing else (Go std `reflect`, IEEE 754 conversions). -/
def f32ViaF64 (n : Nat) : Nat := if isNaN32 n then n ||| 2 ^ 22 else n

/-- The byte order a 128-bit value is marshaled in: `currentFieldOpt.Order` if there is one, else `getByteOrder()`
(u128.go:48-60, 182-190). -/
def order128 (cur endianness : Option Order) : Order :=
  match cur with
  | some o => o
  | none => endianness.getD .le

/-- `MarshalWithEncoder` of the library types: `SafeString` types.go:30-32, `Bool` 73-75, `HexBytes` 108-110,
`Varint16` 124-126, `Varuint16` 140-142, `Varuint32` 156-158, `Varint32` 172-174, `JSONFloat64` 219-221,
`Int64` 279-281, `Uint64` 339-341 (these three dereference `currentFieldOpt`), `Uint128` u128.go:182-191,
`Int128` 250-258, `Float128` 294-302, `EmptyVariant` encoder_borsh.go:281-283. A value of another shape does not occur
in Go and is modelled as a panic. -/
def marshalLib (l : Lib) (v : Val) : EM Unit :=
  match l, v with
  | .safeString, .str s => writeString s
  | .bool, .bool b => writeBool b
  | .hexBytes, .bytes b => writeBytes (b.getD []) true
  | .varint16, .int z => writeVarInt z
  | .varuint16, .uint n => writeUVarInt n
  | .varuint32, .uint n => writeUVarInt n
  | .varint32, .int z => writeVarInt z
  | .jsonFloat64, .float n => do
    let e ← M.get
    match e.cur with
    | none => M.panic
    | some o => writeFloat64 n o
  | .int64, .int z => do
    let e ← M.get
    match e.cur with
    | none => M.panic
    | some o => writeInt64 z o
  | .uint64, .uint n => do
    let e ← M.get
    match e.cur with
    | none => M.panic
    | some o => writeUint64 n o
  | .uint128, .u128 lo hi en => do
    let e ← M.get
    writeUint128 lo hi (order128 e.cur en)
  | .int128, .u128 lo hi en => do
    let e ← M.get
    writeInt128 lo hi (order128 e.cur en)
  | .float128, .u128 lo hi en => do
    let e ← M.get
    writeUint128 lo hi (order128 e.cur en)
  | .emptyVariant, .struct _ => pure ()
  | _, _ => M.panic

/-- The scalar kinds: `encodePrimitive` (encoder_borsh.go:29-64, called with order `LE`), encoder_bin.go:67-91 and
encoder_compact-u16.go:66-90 (called with `opt.Order`).  `none`: not a scalar kind. -/
def encScalar (e : Encoding) (k : Kind) (o : Order) (v : Val) : Option (EM Unit) :=
  match k, v with
  | .string, .str s => some (if e = .bin then writeRustString s else writeString s)
  | .uint .w8, .uint n => some (writeByte (UInt8.ofNat n))
  | .int .w8, .int z => some (writeByte (UInt8.ofNat (toUnsigned 8 z)))
  | .int .w16, .int z => some (writeInt16 z o)
  | .uint .w16, .uint n => some (writeUint16 n o)
  | .int .w32, .int z => some (writeInt32 z o)
  | .uint .w32, .uint n => some (writeUint32 n o)
  | .uint .w64, .uint n => some (writeUint64 n o)
  | .int .w64, .int z => some (writeInt64 z o)
  | .f32, .float n => some (writeFloat32 (f32ViaF64 n) o)
  | .f64, .float n => some (writeFloat64 n o)
  | .bool, .bool b => some (writeBool b)
  | .string, _ | .uint _, _ | .int _, _ | .f32, _ | .f64, _ | .bool, _ => some M.panic
  | _, _ => none

/-- The bytes of one element in the bulk path. -/
def bulkBytes (w : Width) : Val → Option Bytes
  | .uint n => some (putUint .le w.bytes n)
  | _ => none

/-- `List.mapM` in `Option`, spelled out. -/
def mapOpt {α β : Type} (f : α → Option β) : List α → Option (List β)
  | [] => some []
  | x :: xs =>
    match f x, mapOpt f xs with
    | some y, some ys => some (y :: ys)
    | _, _ => none

/-- `reflect_writeArrayOfUint_` (encoder.go:364-419), order always `LE`: `make` panics for negative `l`, `Index`
panics beyond the end, otherwise one `WriteBytes(buf, false)`. -/
def writeUints (l : Int) (w : Width) (xs : List Val) : EM Unit :=
  if l < 0 then M.panic
  else if xs.length < l.toNat then M.panic
  else
    match mapOpt (bulkBytes w) (xs.take l.toNat) with
    | none => M.panic
    | some bs => writeBytes bs.flatten false

/-- Length prefix of slices and maps: encoder_bin.go:133,176, encoder_borsh.go:178,224,
encoder_compact-u16.go:131,174. -/
def writeSeqLen (e : Encoding) (n : Nat) : EM Unit :=
  match e with
  | .bin => writeUVarInt n
  | .borsh => writeUint32 (toUnsigned 32 n) .le
  | .compactU16 => writeCompactU16 n
  | .other => M.panic

/-- The optional flag: encoder_bin.go:46,48 (four bytes), encoder_compact-u16.go:45,47, encoder_borsh.go:84,86. -/
def writeFlag (e : Encoding) (b : Bool) : EM Unit :=
  match e with
  | .bin => writeUint32 (if b then 1 else 0) .le
  | .borsh => writeOption b
  | _ => writeBool b

/-- Order on floats given by their bit patterns (`<` on floats without NaN): sign and magnitude. -/
def floatKey (w : Nat) (bits : Nat) : Int :=
  if bits < 2 ^ (w - 1) then (bits : Int) else -((bits % 2 ^ (w - 1) : Nat) : Int)

/-- Lexicographic `<` on byte strings (Go string comparison). -/
def bytesLt : Bytes → Bytes → Bool
  | _, [] => false
  | [], _ :: _ => true
  | a :: as, b :: bs => a < b || (a == b && bytesLt as bs)

/-- The comparison made by `vComp` (encoder_borsh.go:372-395) on two keys of a sortable type. -/
def keyLt (k : Kind) (a b : Val) : Bool :=
  match k, a, b with
  | .f32, .float x, .float y => !isNaN32 x && !isNaN32 y && floatKey 32 x < floatKey 32 y
  | .f64, .float x, .float y => !isNaN64 x && !isNaN64 y && floatKey 64 x < floatKey 64 y
  | _, .int x, .int y => x < y
  | _, .uint x, .uint y => x < y
  | _, .str x, .str y => bytesLt x y
  | _, _, _ => false

/-- The key types `vComp` can compare without panicking (encoder_borsh.go:379-393): the type assertions
`a.Interface().(int64)` and `.(uint64)` panic on defined types. -/
def Ty.sortable (t : Ty) : Bool :=
  match t with
  | .int .w64 named => !named
  | .uint .w64 named => !named
  | .lib .int64 | .lib .uint64 => false
  | t =>
    match t.kind with
    | .int _ | .uint _ | .plainInt | .plainUint | .f32 | .f64 | .string => true
    | _ => false

/-- Insert an entry into a list sorted by key. -/
def insertSorted (k : Kind) (x : Val × Val) : List (Val × Val) → List (Val × Val)
  | [] => [x]
  | y :: ys => if keyLt k y.1 x.1 then y :: insertSorted k x ys else x :: y :: ys

def sortEntries (k : Kind) : List (Val × Val) → List (Val × Val)
  | [] => []
  | x :: xs => insertSorted k x (sortEntries k xs)

/-- `sort.Slice(keys, vComp(keys))` (encoder_borsh.go:211): Go std `sort.Slice` calls the comparison as soon as there are two
keys, and then panics on an unsupported key type; otherwise the keys end up in ascending order (keys of a map are
distinct, so the order is determined).  Entries are sorted here instead of keys. -/
def sortedEntries (k : Ty) (m : List (Val × Val)) : EM (List (Val × Val)) :=
  if m.length < 2 then pure m
  else if k.sortable then pure (sortEntries k.kind m)
  else M.panic

/-- The entries in the order they are written: sorted in Borsh (encoder_borsh.go:210-211), else as `MapKeys` lists them
(encoder_bin.go:164). -/
def mapEntries (e : Encoding) (k : Ty) (m : List (Val × Val)) : EM (List (Val × Val)) :=
  if e = .borsh then sortedEntries k m else pure m

mutual
/-- Does a map find this key of its own (Go `==` of the key with itself)?  Floats that are NaN are not found. -/
def Ty.found : Ty → Val → Bool
  | .f32, .float x => !isNaN32 x
  | .f64, .float x => !isNaN64 x
  | .lib .jsonFloat64, .float x => !isNaN64 x
  | .array _ t, .arr xs => xs.all fun x => t.found x
  | .struct fs, .struct xs => fs.found xs
  | _, _ => true
def Fields.found : Fields → List Val → Bool
  | .cons _ t fs, x :: xs => t.found x && fs.found xs
  | _, _ => true
end

/-- The optional and C-optional flags: encoder_bin.go:41-54, encoder_compact-u16.go:40-53, encoder_borsh.go:79-106.
Returns whether the value itself still has to be written. -/
def encFlags (e : Encoding) (t : Ty) (o : Opt) (v : Val) : EM Bool :=
  if o.optional ∧ t.isZero v then do
    writeFlag e false
    pure false
  else do
    if o.optional then writeFlag e true
    if e = .borsh ∧ o.coptional then
      if t.isZero v then do
        writeCOption false
        pure false
      else do
        writeCOption true
        pure true
    else pure true

/-- `sizeOfMap[fieldTag.SizeOf] = sizeof(structField.Type, rv)` (encoder_bin.go:219-227, encoder_borsh.go:323-331;
decoder_bin.go:340-349, decoder_borsh.go:441-450). -/
def recordSize {σ : Type} (m : FieldMeta) (t : Ty) (v : Val) (sm : List (Bytes × Int)) : M σ (List (Bytes × Int)) :=
  if m.tag.sizeOf = [] then pure sm
  else do
    let n ← M.lift (sizeofVal t.kind v)
    pure ((m.tag.sizeOf, n) :: sm)

/-- The `option` built for a field (encoder_bin.go:239-249, encoder_borsh.go:343-354). `is_COptionalField` is only set,
and only looked at, by the Borsh code. -/
def fieldOpt (m : FieldMeta) (sm : List (Bytes × Int)) : Opt :=
  { optional := m.tag.option, coptional := m.tag.coption, order := m.tag.order, sizeOf := lookupSize m.name sm }

/-- `encodeStructBorsh` applied to a `Uint128`/`Int128`/`Float128` as an enum payload: its fields `Lo`, `Hi` and the
interface `Endianness` (u128.go:30-34). -/
def encU128Fields : Val → EM Unit
  | .u128 lo hi _ => do
    setCurE .le
    writeUint64 lo .le
    setCurE .le
    writeUint64 hi .le
    setCurE .le
  | _ => M.panic

/-- A scalar value: Borsh writes little endian whatever the tag says (encoder_borsh.go:125), the others use
`opt.Order`. -/
def encPlain (e : Encoding) (k : Kind) (o : Opt) (v : Val) : EM Unit :=
  (encScalar e k (if e = .borsh then .le else o.order) v).getD M.panic

/-- `encodeStructBorsh` up to the field loop (encoder_borsh.go:296-305) and `encodeComplexEnumBorsh`
(encoder_borsh.go:249-261); the other encodings have no enums.  `fields` is the field loop, `nth i` the encoding of
field `i` as an enum payload. -/
def encStruct (e : Encoding) (fs : Fields) (vs : List Val) (fields : EM Unit) (nth : Nat → EM Unit) : EM Unit :=
  if e = .borsh ∧ fs.isEnum then
    match vs with
    | .uint n :: _ => do
      writeByte (UInt8.ofNat n)
      if n + 1 ≥ fs.length then M.err .enumTooLarge else nth (n + 1)
    | _ => M.panic
  else fields

/-- A library type as enum payload: its method is not used; structs go field by field, scalars by kind, and
`HexBytes` (a slice) writes nothing (encoder_borsh.go:265-273). -/
def encLibPayload (e : Encoding) (l : Lib) (v : Val) : EM Unit :=
  match l with
  | .uint128 | .int128 | .float128 => encU128Fields v
  | .emptyVariant => pure ()
  | l => (encScalar e l.kind .le v).getD (pure ())

mutual
/-- The part of `encodeBin` / `encodeCompactU16` / `encodeBorsh` after the flags (encoder_bin.go:56-193,
encoder_compact-u16.go:55-191, encoder_borsh.go:108-246).  `currentFieldOpt` has been set by the caller.  A value that
does not have the type does not occur in Go; it is modelled as a panic. -/
def encCore (e : Encoding) : Ty → Opt → Val → EM Unit
  | .lib l, _, v => marshalLib l v
  | .ptr t, o, .ptr p =>
    match t.asLib with
    | some l =>
      -- `*lib` implements BinaryMarshaler (value receivers are promoted)
      match p with
      | some x => marshalLib l x
      | none =>
        -- encoder_borsh.go:115-117; elsewhere the promoted value method dereferences nil
        if e = .borsh ∨ l = .emptyVariant then pure () else M.panic
    | none =>
      if e = .borsh then do
        -- encoder_borsh.go:131-137: option dropped, nil pointers written as the zero value
        setCurE .le
        encCore e t {} (p.getD t.zero)
      else do
        -- encoder_bin.go:93: same option, nil pointers write nothing (line 56)
        setCurE o.order
        match p with
        | none => pure ()
        | some x => encCore e t o x
  | .slice t, o, .seq xs => do
    -- encoder_bin.go:124-157, encoder_borsh.go:169-202
    let l : Int ←
      match o.sizeOf with
      | some s => pure s
      | none => do
        writeSeqLen e (xs.getD []).length
        pure ((xs.getD []).length : Int)
    match t.uintKind with
    | some w => writeUints l w (xs.getD [])
    | none => forIndexM (fun x => do setCurE .le; encCore e t {} x) l.toNat (xs.getD [])
  | .array n t, _, .arr xs =>
    -- encoder_bin.go:102-122, encoder_borsh.go:148-168
    match t.uintKind with
    | some w => writeUints n w xs
    | none => forIndexM (fun x => do setCurE .le; encCore e t {} x) n xs
  | .map k t, _, .map m => do
    -- encoder_bin.go:163-188, encoder_borsh.go:209-236; `MapIndex` of a key that is not found is the zero `Value`, whose
    -- `Interface` panics
    let m ← mapEntries e k (m.getD [])
    writeSeqLen e m.length
    forEachM (fun x => do
      setCurE .le
      encCore e k {} x.1
      if k.found x.1 then do
        setCurE .le
        encCore e t {} x.2
      else M.panic) m
  | .struct fs, _, .struct vs => encStruct e fs vs (encFields e fs [] vs) (fun i => encNth e fs i vs)
  | .iface, _, .nil => pure ()
  | .bool, o, v => encPlain e .bool o v
  | .uint w _, o, v => encPlain e (.uint w) o v
  | .int w _, o, v => encPlain e (.int w) o v
  | .borshEnum, o, v => encPlain e (.uint .w8) o v
  | .f32, o, v => encPlain e .f32 o v
  | .f64, o, v => encPlain e .f64 o v
  | .str, o, v => encPlain e .string o v
  | .plainInt, _, _ => M.err .unsupported
  | .plainUint, _, _ => M.err .unsupported
  | .other, _, _ => M.err .unsupported
  | _, _, _ => M.panic
/-- `encodeStructBin` (encoder_bin.go:196-265), `encodeStructCompactU16` (encoder_compact-u16.go:194-263), and the
field loop of `encodeStructBorsh` (encoder_borsh.go:307-369). -/
def encFields (e : Encoding) : Fields → List (Bytes × Int) → List Val → EM Unit
  | .nil, _, _ => pure ()
  | .cons _ _ _, _, [] => M.panic
  | .cons m t fs, sm, v :: vs =>
    if m.tag.skip then encFields e fs sm vs
    else do
      let sm ← recordSize m t v sm
      if m.exported then do
        setCurE m.tag.order
        let more ← encFlags e t (fieldOpt m sm) v
        if more then encCore e t (fieldOpt m sm) v else pure ()
        encFields e fs sm vs
      else encFields e fs sm vs
/-- `rv.Field(i)` of a complex enum and the encoding of that field (encoder_borsh.go:261-273).  The variant fields are
taken to be exported. -/
def encNth (e : Encoding) : Fields → Nat → List Val → EM Unit
  | .cons _ t _, 0, v :: _ => encPayload e t v
  | .cons _ _ fs, i + 1, _ :: vs => encNth e fs i vs
  | _, _, _ => M.panic
/-- encoder_borsh.go:262-273: one pointer is followed; a nil pointer then has no kind and writes nothing. -/
def encPayload (e : Encoding) : Ty → Val → EM Unit
  | .ptr t, .ptr p =>
    match p with
    | none => pure ()
    | some x => encVariant e t x
  | .ptr _, _ => M.panic
  | .struct fs, .struct vs => encStruct e fs vs (encFields e fs [] vs) (fun i => encNth e fs i vs)
  | .struct _, _ => M.panic
  | .lib l, v => encLibPayload e l v
  | t, v => (encScalar e t.kind .le v).getD (pure ())
/-- encoder_borsh.go:265-273, after the pointer. -/
def encVariant (e : Encoding) : Ty → Val → EM Unit
  | .struct fs, .struct vs => encStruct e fs vs (encFields e fs [] vs) (fun i => encNth e fs i vs)
  | .struct _, _ => M.panic
  | .lib l, v => encLibPayload e l v
  | t, v => (encScalar e t.kind .le v).getD (pure ())
end

/-- `Encode` (encoder.go:68-86): `encodeBin` / `encodeBorsh` / `encodeCompactU16` with a nil option; panics for an unknown
encoding. -/
def encode (t : Ty) (v : Val) : EM Unit := do
  let s ← M.get
  if s.enc = .other then M.panic
  else do
    setCurE .le
    encCore s.enc t {} v

end Verif
