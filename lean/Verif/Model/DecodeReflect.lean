import Verif.Model.EncodeReflect
/-!
# The reflection decoder: decoder_bin.go, decoder_borsh.go, decoder_compact-u16.go, and the library unmarshalers

Decoding fills in an existing variable, so every function takes the old value of the destination and returns the new
one.  For the content of the destination after a failed decode see `Model/DecodeInto`.
-/
namespace Verif

/-- `dec.currentFieldOpt = opt` (decoder_bin.go:48, decoder_borsh.go:48). -/
def setCurD (o : Order) : DM Unit := M.modify fun d => { d with cur := some o }

/-- `getByteOrder` (u128.go:48-60) of the receiver. -/
def Val.endianness : Val → Option Order
  | .u128 _ _ e => e
  | _ => none

/-- `UnmarshalWithDecoder` of the library types: `SafeString` types.go:34-42, `Bool` 63-71, `HexBytes` 98-106,
`Varint16` 114-122, `Varuint16` 130-138, `Varuint32` 146-154 (reads a `ReadUvarint64` and truncates), `Varint32`
162-170, `JSONFloat64` 209-217, `Int64` 269-277, `Uint64` 329-337 (these three dereference `currentFieldOpt`),
`Uint128` u128.go:166-180, `Int128` 234-248, `Float128` 278-292 (`*i = value` also clears `Endianness`),
`EmptyVariant` encoder_borsh.go:285-287. -/
def unmarshalLib (l : Lib) (old : Val) : DM Val :=
  match l with
  | .safeString => do let s ← safeReadUTF8String; pure (.str s)
  | .bool => do let b ← readBool; pure (.bool b)
  | .hexBytes => do let b ← readByteSlice; pure (.bytes (some b))
  | .varint16 => do let z ← readVarint16; pure (.int z)
  | .varuint16 => do let n ← readUvarint16; pure (.uint n)
  | .varuint32 => do let n ← readUvarint64; pure (.uint (n % 2 ^ 32))
  | .varint32 => do let z ← readVarint32; pure (.int z)
  | .jsonFloat64 => do
    let d ← M.get
    match d.cur with
    | none => M.panic
    | some o => do let n ← readFloat64 o; pure (.float n)
  | .int64 => do
    let d ← M.get
    match d.cur with
    | none => M.panic
    | some o => do let z ← readInt64 o; pure (.int z)
  | .uint64 => do
    let d ← M.get
    match d.cur with
    | none => M.panic
    | some o => do let n ← readUint64 o; pure (.uint n)
  | .uint128 => do
    let d ← M.get
    let r ← readUint128 (order128 d.cur old.endianness)
    pure (.u128 r.1 r.2 none)
  | .int128 => do
    let d ← M.get
    let r ← readInt128 (order128 d.cur old.endianness)
    pure (.u128 r.1 r.2 none)
  | .float128 => do
    let d ← M.get
    let r ← readFloat128 (order128 d.cur old.endianness)
    pure (.u128 r.1 r.2 none)
  | .emptyVariant => pure old

/-- The scalar kinds: decoder_bin.go:88-151, decoder_compact-u16.go:87-150 (with `opt.Order`), decoder_borsh.go:109-184
(with `LE`).  `rv.SetFloat(float64(n))` on a `float32` goes through `float64`. -/
def decScalar (e : Encoding) (k : Kind) (o : Order) : DM Val :=
  match k with
  | .string => do let s ← (if e = .bin then readRustString else readString); pure (.str s)
  | .uint .w8 => do let n ← readByte; pure (.uint n.toNat)
  | .int .w8 => do let z ← readInt8; pure (.int z)
  | .int .w16 => do let z ← readInt16 o; pure (.int z)
  | .int .w32 => do let z ← readInt32 o; pure (.int z)
  | .int .w64 => do let z ← readInt64 o; pure (.int z)
  | .uint .w16 => do let n ← readUint16 o; pure (.uint n)
  | .uint .w32 => do let n ← readUint32 o; pure (.uint n)
  | .uint .w64 => do let n ← readUint64 o; pure (.uint n)
  | .f32 => do let n ← readFloat32 o; pure (.float (f32ViaF64 n))
  | .f64 => do let n ← readFloat64 o; pure (.float n)
  | .bool => do let b ← readBool; pure (.bool b)
  | _ => M.panic

/-- A scalar: Borsh reads little endian whatever the tag says. -/
def decPlain (e : Encoding) (k : Kind) (o : Opt) : DM Val :=
  decScalar e k (if e = .borsh then .le else o.order)

/-- `ReadUint16/32/64(order)` by width. -/
def readUintW (w : Width) (o : Order) : DM Nat :=
  match w with
  | .w8 => readUint8
  | .w16 => readUint16 o
  | .w32 => readUint32 o
  | .w64 => readUint64 o

/-- `reflect_readArrayOfUint_` (decoder.go:929-960) with `reflect_readArrayOfBytes` (762-795) and
`reflect_readArrayOfUint16/32/64` (797-926), order always `LE`: the elements read.  `make` panics for negative `l`.
The product `l*2` etc. is not wrapped. -/
def readUints (l : Int) (w : Width) : DM (List Val) := do
  let d ← M.get
  if l * w.bytes > d.remaining then M.err .eof
  else
    match w with
    | .w8 => do
      let buf ← readNBytes l
      pure (buf.map fun b => .uint b.toNat)
    | w =>
      if l < 0 then M.panic
      else do
        let ns ← repeatM (readUintW w .le) l.toNat
        pure (ns.map .uint)

/-- Length prefix of slices and maps: `ReadLength` (decoder_bin.go:181,221), `ReadUint32(LE)`
(decoder_borsh.go:216,260), `ReadCompactU16Length` (decoder_compact-u16.go:180,220). -/
def readSeqLen (e : Encoding) : DM Nat :=
  match e with
  | .bin => readLength
  | .borsh => readUint32 .le
  | .compactU16 => readCompactU16
  | .other => M.panic

/-- The optional flag: decoder_bin.go:61-67, decoder_compact-u16.go:60-66, decoder_borsh.go:61-67. -/
def readFlag (e : Encoding) : DM Bool :=
  match e with
  | .bin => do let n ← readUint32 .le; pure (n != 0)
  | .borsh => readOption
  | _ => do let b ← readByte; pure (b != 0)

/-- `for _, x := range xs { y, err := f(x); …; ys = append(ys, y) }` -/
def traverseM {σ α β : Type} (f : α → M σ β) : List α → M σ (List β)
  | [] => pure []
  | a :: as => do
    let b ← f a
    let bs ← traverseM f as
    pure (b :: bs)

/-- Equality of floats given by bit patterns (Go `==`): NaN differs from everything, `+0` equals `-0`. -/
def floatEq (w : Nat) (isNaN : Nat → Bool) (x y : Nat) : Bool :=
  !isNaN x && !isNaN y && floatKey w x == floatKey w y

/-- Go `==` on values other than floats, arrays and structs.  Two distinct non-nil pointers are different. -/
def Val.plainEq : Val → Val → Bool
  | .bool a, .bool b => a == b
  | .uint a, .uint b => a == b
  | .int a, .int b => a == b
  | .str a, .str b => a == b
  | .u128 a b c, .u128 a' b' c' => a == a' && b == b' && c == c'
  | .ptr none, .ptr none => true
  | .nil, .nil => true
  | _, _ => false

/-- Go `==` on the library's types. -/
def Lib.keyEq : Lib → Val → Val → Bool
  | .jsonFloat64, .float x, .float y => floatEq 64 isNaN64 x y
  | .emptyVariant, .struct [], .struct [] => true
  | _, x, y => x.plainEq y

mutual
/-- Go `==` on map keys of the given type. -/
def Ty.keyEq : Ty → Val → Val → Bool
  | .f32, .float x, .float y => floatEq 32 isNaN32 x y
  | .f64, .float x, .float y => floatEq 64 isNaN64 x y
  | .lib l, x, y => l.keyEq x y
  | .array _ t, .arr xs, .arr ys => xs.length == ys.length && (xs.zip ys).all fun p => t.keyEq p.1 p.2
  | .struct fs, .struct xs, .struct ys => fs.keysEq xs ys
  | _, x, y => x.plainEq y
def Fields.keysEq : Fields → List Val → List Val → Bool
  | .cons _ t fs, x :: xs, y :: ys => t.keyEq x y && fs.keysEq xs ys
  | _, [], [] => true
  | _, _, _ => false
end

/-- `rv.SetMapIndex(key, val)`: an entry with an equal key is replaced.  Equal keys can differ for floats (`+0` and `-0`);
the runtime then stores the new key as well (Go std `runtime.mapassign`, `NeedKeyUpdate`). -/
def setEntry (k : Ty) (x : Val × Val) : List (Val × Val) → List (Val × Val)
  | [] => [x]
  | y :: ys => if k.keyEq y.1 x.1 then x :: ys else y :: setEntry k x ys

/-- `indirect(rv, true)` followed by `rv.Set(reflect.Zero(rv.Type()))` (decoder.go:694-760, decoder_bin.go:50,72):
pointers to pointers are followed as long as they are non-nil, the last pointer is set to nil. -/
def absentVal : Ty → Val → Val
  | .ptr (.ptr t), .ptr (some x) => .ptr (some (absentVal (.ptr t) x))
  | t, _ => t.zero

/-- `indirect(rv, false)` followed by `rv.Set(reflect.Zero(rv.Type()))`: all pointers are allocated. -/
def absentBase : Ty → Val
  | .ptr t => .ptr (some (absentBase t))
  | t => t.zero

/-- Does following all pointers lead to a library type? -/
def Ty.baseLib : Ty → Bool
  | .ptr t => t.baseLib
  | .lib _ => true
  | _ => false

/-- A field type that is, or points to, a library unmarshaler (decoder_borsh.go:411-413). -/
def Ty.directLib : Ty → Option (Lib × Bool)
  | .lib l => some (l, false)
  | .ptr t =>
    match t.asLib with
    | some l => some (l, true)
    | none => none
  | _ => none

/-- `decodeBin` / `decodeCompactU16` / `decodeBorsh` with the option of a struct field (decoder_bin.go:44-86,
decoder_borsh.go:44-106); `core` is the rest of the function, applied to the old value.  A library type that is itself
optional makes `indirect(rv, true)` return the zero `reflect.Value`, and every continuation panics (`rv.Type()` on
line 63, `rv.Set` on line 72, `indirect` on line 77). -/
def decField (e : Encoding) (t : Ty) (o : Opt) (old : Val) (core : DM Val) : DM Val := do
  setCurD o.order
  if o.optional then
    if t.asLib.isSome then M.panic
    else do
      let present ← readFlag e
      if present then
        if e = .borsh ∧ o.coptional then
          if t.baseLib then M.panic
          else do
            let present ← readCOption
            if present then core else pure (absentBase t)
        else core
      else pure (absentVal t old)
  else if e = .borsh ∧ o.coptional then
    if t.asLib.isSome then M.panic
    else do
      let present ← readCOption
      if present then core else pure (absentVal t old)
  else core

/-- decoder_bin.go:287, decoder_borsh.go:361: `len(dec.data[dec.pos:]) <= 0`. -/
def noBytesLeft : DM Bool := do
  let rest ← restM
  pure (rest.length == 0)

/-- Is this an extension field with no bytes left for it? (decoder_bin.go:280-289, decoder_borsh.go:354-363) -/
def extensionEnds (m : FieldMeta) : DM Bool :=
  if m.tag.binExt then noBytesLeft else pure false

/-- `decodeStructBorsh` up to the field loop and `deserializeComplexEnum` (decoder_borsh.go:291-331): tag into field 0,
then the selected field. -/
def decStruct (e : Encoding) (fs : Fields) (fields : DM (List Val)) (nth : Nat → DM (List Val)) : DM Val :=
  if e = .borsh ∧ fs.isEnum then do
    let tag ← readUint8
    if tag + 1 ≥ fs.length then M.err .enumTooLarge
    else do
      let vs ← nth (tag + 1)
      pure (.struct (.uint tag :: vs.tail))
  else do
    let vs ← fields
    pure (.struct vs)

/-- The old value behind a pointer, or a freshly allocated one (decoder.go:743-745). -/
def Val.deref (t : Ty) : Val → Val
  | .ptr (some x) => x
  | _ => t.zero

/-- The old elements of an array. -/
def Val.elems (n : Nat) (t : Ty) : Val → List Val
  | .arr xs => xs
  | _ => List.replicate n t.zero

/-- The old fields of a struct. -/
def Val.fields (fs : Fields) : Val → List Val
  | .struct vs => vs
  | _ => fs.zeros

mutual
/-- `decodeBin` (decoder_bin.go:80-249), `decodeCompactU16` (decoder_compact-u16.go:79-248), `decodeBorsh`
(decoder_borsh.go:98-288), after the flags, including the pointer chase of `indirect(rv, false)`.  The pointer chase
keeps the option. -/
def decCore (e : Encoding) : Ty → Opt → Val → DM Val
  | .lib l, _, old => unmarshalLib l old
  | .ptr t, o, old => do
    let x ← decCore e t o (old.deref t)
    pure (.ptr (some x))
  | .slice t, o, old => do
    let l : Int ←
      match o.sizeOf with
      | some s => pure s
      | none => do
        let n ← readSeqLen e
        pure (n : Int)
    if e = .borsh ∧ l = 0 then pure old
    else do
      let d ← M.get
      if l > d.remaining then M.err .eof
      else
        match t.uintKind with
        | some w => do
          let xs ← readUints l w
          pure (.seq (some xs))
        | none => do
          let xs ← repeatM (do setCurD .le; decCore e t {} t.zero) l.toNat
          pure (.seq (some xs))
  | .array n t, _, old => do
    match t.uintKind with
    | some w => do
      let xs ← readUints n w
      pure (.arr xs)
    | none => do
      let xs ← traverseM (fun x => do setCurD .le; decCore e t {} x) (old.elems n t)
      pure (.arr xs)
  | .map k t, _, old => do
    let l ← readSeqLen e
    if l = 0 then pure old
    else do
      let xs ← repeatM (do
        setCurD .le
        let x ← decCore e k {} k.zero
        setCurD .le
        let y ← decCore e t {} t.zero
        pure (x, y)) l
      pure (.map (some (xs.foldl (fun m x => setEntry k x m) [])))
  | .struct fs, _, old =>
    decStruct e fs (decFields e fs [] false (old.fields fs)) (fun i => decNth e fs i (old.fields fs))
  | .iface, _, old => pure old
  | .bool, o, _ => decPlain e .bool o
  | .uint w _, o, _ => decPlain e (.uint w) o
  | .int w _, o, _ => decPlain e (.int w) o
  | .borshEnum, o, _ => decPlain e (.uint .w8) o
  | .f32, o, _ => decPlain e .f32 o
  | .f64, o, _ => decPlain e .f64 o
  | .str, o, _ => decPlain e .string o
  | .plainInt, _, _ => M.err .unsupported
  | .plainUint, _, _ => M.err .unsupported
  | .other, _, _ => M.err .unsupported
/-- `decodeStructBin` (decoder_bin.go:252-352), `decodeStructCompactU16` (decoder_compact-u16.go:251-351), and the field
loop of `decodeStructBorsh` (decoder_borsh.go:333-452). -/
def decFields (e : Encoding) : Fields → List (Bytes × Int) → Bool → List Val → DM (List Val)
  | .nil, _, _, _ => pure []
  | .cons _ _ _, _, _, [] => M.panic
  | .cons m t fs, sm, seen, v :: vs =>
    if m.tag.skip then do
      let rest ← decFields e fs sm seen vs
      pure (v :: rest)
    else if !m.tag.binExt && seen then M.panic
    else do
      let atEnd ← extensionEnds m
      if atEnd || !m.exported then do
        let rest ← decFields e fs sm (seen || m.tag.binExt) vs
        pure (v :: rest)
      else
        match (if e = .borsh then t.directLib else none) with
        | some (l, isPtr) => do
          -- decoder_borsh.go:411-434: the option is ignored and `currentFieldOpt` is left as it was
          let x ← unmarshalLib l l.zero
          let rest ← decFields e fs sm (seen || m.tag.binExt) vs
          pure ((if isPtr then .ptr (some x) else x) :: rest)
        | none => do
          let x ← decField e t (fieldOpt m sm) v (decCore e t (fieldOpt m sm) v)
          let sm ← recordSize m t x sm
          let rest ← decFields e fs sm (seen || m.tag.binExt) vs
          pure (x :: rest)
/-- `dec.decodeBorsh(rv.Field(i), nil)` (decoder_borsh.go:305-306). -/
def decNth (e : Encoding) : Fields → Nat → List Val → DM (List Val)
  | .cons _ t _, 0, v :: vs => do
    setCurD .le
    let x ← decCore e t {} v
    pure (x :: vs)
  | .cons _ _ fs, i + 1, v :: vs => do
    let rest ← decNth e fs i vs
    pure (v :: rest)
  | _, _, _ => M.panic
end

/-- `Decode(&x)` for a variable `x` of type `t` holding `old` (decoder.go:127-138, decoder_bin.go:29-42): returns the new
content of `x`. -/
def decode (t : Ty) (old : Val) : DM Val := do
  let d ← M.get
  if d.enc = .other then M.panic
  else do
    setCurD .le
    decCore d.enc t {} old

/-- The argument of `Decode`. -/
inductive DecodeArg where
  /-- not a pointer (including a nil interface) -/
  | nonPtr
  /-- a typed nil pointer -/
  | nilPtr
  /-- `&x`, `x` of type `t` holding `old` -/
  | addr (t : Ty) (old : Val)

/-- `Decode(v)` (decoder.go:127-138): non-pointers are refused (decoder_bin.go:31-33), a nil pointer panics in `v.Set`
(decoder.go:744). -/
def decodeArg (a : DecodeArg) : DM Val := do
  let d ← M.get
  if d.enc = .other then M.panic
  else
    match a with
    | .nonPtr => M.err .invalidDecoder
    | .nilPtr => M.panic
    | .addr t old => decode t old

end Verif
