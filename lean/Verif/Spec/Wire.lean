import Verif.Model.DecodeReflect
import Verif.Spec.Numbers
/-!
# What the three encodings put on the wire

`Spec.wire` describes the bytes of a value of a given type directly, as a function of type and value, with no encoder
state, no option records and no model helper other than the type language of `Model/Types.lean` (kinds, zero values).
-/
namespace Verif.Spec

/-- `n` in exactly `k` bytes. -/
def fixed (o : Order) (k n : Nat) : Bytes :=
  let le := (List.range k).map fun i => UInt8.ofNat (n / 256 ^ i)
  match o with
  | .le => le
  | .be => le.reverse

/-- two's complement on `b` bits -/
def twos (b : Nat) (z : Int) : Nat := (z % (2 : Int) ^ b).toNat

/-- LEB128: seven bits per byte, low group first, high bit = "more". -/
def varint (n : Nat) : Bytes :=
  if n < 128 then [UInt8.ofNat n] else UInt8.ofNat (n % 128 + 128) :: varint (n / 128)
termination_by n

/-- zig-zag -/
def zig (z : Int) : Nat := if 0 ≤ z then (2 * z).toNat else (-2 * z - 1).toNat

/-- Length prefix of byte strings, slices and maps: a varint in Bin, four little-endian bytes in Borsh, a compact-u16 in
CompactU16. -/
def lenPrefix (e : Encoding) (n : Nat) : Bytes :=
  match e with
  | .bin => varint n
  | .borsh => fixed .le 4 n
  | .compactU16 => compact n
  | .other => []

/-- Length prefix of a Go `string`: eight little-endian bytes in Bin, otherwise as above. -/
def strPrefix (e : Encoding) (n : Nat) : Bytes :=
  if e = .bin then fixed .le 8 n else lenPrefix e n

/-- Presence flag of an optional field: four bytes in Bin, one byte in the others. -/
def flag (e : Encoding) (b : Bool) : Bytes :=
  fixed .le (if e = .bin then 4 else 1) (if b then 1 else 0)

/-- Presence flag of a C-optional field. -/
def cflag (b : Bool) : Bytes := fixed .le 4 (if b then 1 else 0)

/-- Byte order of a scalar: the tag counts except in Borsh. -/
def ord (e : Encoding) (o : Order) : Order := if e = .borsh then .le else o

/-- Library types. -/
def libWire (e : Encoding) (l : Lib) (o : Order) (v : Val) : Bytes :=
  match l, v with
  | .safeString, .str s => lenPrefix e s.length ++ s
  | .bool, .bool b => [if b then 1 else 0]
  | .hexBytes, .bytes b => lenPrefix e (b.getD []).length ++ b.getD []
  | .varint16, .int z | .varint32, .int z => varint (zig z)
  | .varuint16, .uint n | .varuint32, .uint n => varint n
  | .jsonFloat64, .float n => fixed o 8 n
  | .int64, .int z => fixed o 8 (twos 64 z)
  | .uint64, .uint n => fixed o 8 n
  | .uint128, .u128 lo hi _ | .int128, .u128 lo hi _ | .float128, .u128 lo hi _ => fixed o 16 (hi * 2 ^ 64 + lo)
  | _, _ => []

/-- Elements of slices and arrays of an unsigned kind are fixed-width little endian, even for the library varints. -/
def uintWire (w : Width) : Val → Bytes
  | .uint n => fixed .le w.bytes n
  | _ => []

/-- Magnitude with sign: orders the floats that are not NaN. -/
def floatOrd (w : Nat) (bits : Nat) : Int :=
  if bits / 2 ^ (w - 1) = 0 then (bits : Int) else -((bits - 2 ^ (w - 1) : Nat) : Int)

/-- Rank of a map key: numbers by value, strings lexicographically by bytes. -/
def keyRank (k : Kind) : Val → Int × Bytes
  | .int z => (z, [])
  | .uint n => (n, [])
  | .float n => (floatOrd (if k = .f32 then 32 else 64) n, [])
  | .str s => (0, s)
  | _ => (0, [])

def rankLe (a b : Int × Bytes) : Bool := decide (a.1 < b.1) || (decide (a.1 = b.1) && decide (a.2 ≤ b.2))

/-- Entries of a map by ascending key. -/
def ascending (k : Ty) (m : List (Val × Val)) : List (Val × Val) :=
  m.mergeSort fun a b => rankLe (keyRank k.kind a.1) (keyRank k.kind b.1)

/-- The order in which the entries of a map are written: sorted in Borsh, the iteration order otherwise. -/
def entries (e : Encoding) (k : Ty) (m : List (Val × Val)) : List (Val × Val) :=
  if e = .borsh then ascending k m else m

/-- Flags and body of a struct field. -/
def fieldWire (e : Encoding) (m : FieldMeta) (t : Ty) (v : Val) (body : Bytes) : Bytes :=
  if m.tag.option ∧ t.isZero v then flag e false
  else (if m.tag.option then flag e true else []) ++
    (if e = .borsh ∧ m.tag.coption then
      (if t.isZero v then cflag false else cflag true ++ body)
    else body)

/-- The names announced by `sizeof=` tags after a field. -/
def announced (m : FieldMeta) (names : List Bytes) : List Bytes :=
  if m.tag.sizeOf = [] then names else m.tag.sizeOf :: names

mutual
/-- The bytes of a value.  `o` is the byte order of the enclosing field, `sized` says that an earlier field already
carries the length. -/
def wire (e : Encoding) : Ty → Order → Bool → Val → Bytes
  | .bool, _, _, .bool b => [if b then 1 else 0]
  | .uint w _, o, _, .uint n => fixed (ord e o) w.bytes n
  | .int w _, o, _, .int z => fixed (ord e o) w.bytes (twos w.bits z)
  | .borshEnum, _, _, .uint n => fixed .le 1 n
  | .f32, o, _, .float n => fixed (ord e o) 4 n
  | .f64, o, _, .float n => fixed (ord e o) 8 n
  | .str, _, _, .str s => strPrefix e s.length ++ s
  | .lib l, o, _, v => libWire e l o v
  | .ptr t, o, sized, .ptr p =>
    -- Borsh drops the tag options below a pointer and writes nil as the zero value; the others write nothing for nil
    if e = .borsh ∧ t.asLib = none then wire e t .le false (p.getD t.zero)
    else
      match p with
      | none => []
      | some x => wire e t o sized x
  | .slice t, _, sized, .seq xs =>
    (if sized then [] else lenPrefix e (xs.getD []).length) ++
      (xs.getD []).flatMap fun x =>
        match t.uintKind with
        | some w => uintWire w x
        | none => wire e t .le false x
  | .array _ t, _, _, .arr xs =>
    xs.flatMap fun x =>
      match t.uintKind with
      | some w => uintWire w x
      | none => wire e t .le false x
  | .map k t, _, _, .map m =>
    lenPrefix e (m.getD []).length ++
      (entries e k (m.getD [])).flatMap fun x => wire e k .le false x.1 ++ wire e t .le false x.2
  | .struct fs, _, _, .struct vs =>
    if e = .borsh ∧ fs.isEnum then
      match vs with
      | .uint n :: _ => fixed .le 1 n ++ wireNth e fs (n + 1) vs
      | _ => []
    else wireFields e fs [] vs
  | _, _, _, _ => []
/-- The bytes of struct fields in declaration order. -/
def wireFields (e : Encoding) : Fields → List Bytes → List Val → Bytes
  | .cons m t fs, names, v :: vs =>
    if m.tag.skip then wireFields e fs names vs
    else if m.exported then
      fieldWire e m t v (wire e t m.tag.order ((announced m names).contains m.name) v) ++
        wireFields e fs (announced m names) vs
    else wireFields e fs (announced m names) vs
  | _, _, _ => []
/-- The bytes of the `i`-th field alone. -/
def wireNth (e : Encoding) : Fields → Nat → List Val → Bytes
  | .cons _ t _, 0, v :: _ => wire e t .le false v
  | .cons _ _ fs, i + 1, _ :: vs => wireNth e fs i vs
  | _, _, _ => []
end

/-! ### Which values have an encoding -/

/-- Longest byte string, slice or map whose length prefix is representable. -/
def maxLen : Encoding → Nat
  | .bin => 2 ^ 56 - 1
  | .borsh => 2 ^ 32 - 1
  | .compactU16 => 65535
  | .other => 0

/-- Longest string. -/
def maxStr : Encoding → Nat
  | .bin => 2 ^ 63 - 1
  | e => maxLen e

/-- a signalling NaN of a `float32`: quiet bit clear -/
def signalling32 (n : Nat) : Prop := isNaN32 n = true ∧ n / 2 ^ 22 % 2 = 0

/-- Library values that have an encoding. -/
def LibEnc (e : Encoding) (l : Lib) (v : Val) : Prop :=
  match l, v with
  | .safeString, .str s => s.length ≤ maxLen e
  | .bool, .bool _ => True
  | .hexBytes, .bytes b => (b.getD []).length ≤ maxLen e
  | .varint16, .int z => -2 ^ 15 ≤ z ∧ z < 2 ^ 15
  | .varint32, .int z => -2 ^ 31 ≤ z ∧ z < 2 ^ 31
  | .varuint16, .uint n => n < 2 ^ 16
  | .varuint32, .uint n => n < 2 ^ 32
  | .jsonFloat64, .float n => n < 2 ^ 64 ∧ (e = .borsh → isNaN64 n = false)
  | .int64, .int z => -2 ^ 63 ≤ z ∧ z < 2 ^ 63
  | .uint64, .uint n => n < 2 ^ 64
  | .uint128, .u128 lo hi _ | .int128, .u128 lo hi _ | .float128, .u128 lo hi _ => lo < 2 ^ 64 ∧ hi < 2 ^ 64
  | .emptyVariant, .struct vs => vs = []
  | _, _ => False

/-- An element of an unsigned kind. -/
def UintElem (w : Width) : Val → Prop
  | .uint n => n < 2 ^ w.bits
  | _ => False

/-- Enum payload types whose encoding is that of the type itself (encoder_borsh.go:262-273 writes nothing for slices,
arrays and maps and ignores the methods of the varints). -/
def payloadBase : Ty → Bool
  | .bool | .uint _ _ | .int _ _ | .borshEnum | .f32 | .f64 | .str | .struct _ => true
  | .lib l =>
    match l with
    | .safeString | .bool | .jsonFloat64 | .int64 | .uint64 | .uint128 | .int128 | .float128 | .emptyVariant => true
    | _ => false
  | _ => false

def payloadOk : Ty → Val → Prop
  | .ptr t, v => payloadBase t = true ∧ ∃ x, v = .ptr (some x)
  | t, _ => payloadBase t = true

/-- The sizes announced after a field, `none` if the tag sits on a field that is not an integer. -/
def announce (m : FieldMeta) (t : Ty) (v : Val) (sm : List (Bytes × Int)) : Option (List (Bytes × Int)) :=
  if m.tag.sizeOf = [] then some sm
  else
    match sizeofVal t.kind v with
    | .ok n => some ((m.tag.sizeOf, n) :: sm)
    | _ => none

/-- The field is written as "absent". -/
def absent (e : Encoding) (m : FieldMeta) (t : Ty) (v : Val) : Prop :=
  t.isZero v = true ∧ (m.tag.option = true ∨ (e = .borsh ∧ m.tag.coption = true))

/-- Key types that the Borsh encoder can order: numbers and strings, except defined types of 64-bit integers. -/
def orderedKey : Ty → Bool
  | .uint w named | .int w named => !(w == .w64 && named)
  | .borshEnum | .f32 | .f64 | .str | .plainInt | .plainUint => true
  | .lib l =>
    match l with
    | .safeString | .varint16 | .varuint16 | .varuint32 | .varint32 | .jsonFloat64 => true
    | _ => false
  | _ => false

mutual
/-- The values of a type that have an encoding: right shape, numbers in range, lengths representable, no NaN in Borsh,
map keys comparable and distinct, `sizeof` values equal to the lengths they announce.  `size` is the announced length
if there is one. -/
def Encodable (e : Encoding) : Ty → Option Int → Val → Prop
  | .bool, _, .bool _ => True
  | .uint w _, _, .uint n => n < 2 ^ w.bits
  | .int w _, _, .int z => -2 ^ (w.bits - 1) ≤ z ∧ z < 2 ^ (w.bits - 1)
  | .borshEnum, _, .uint n => n < 256
  | .f32, _, .float n => n < 2 ^ 32 ∧ ¬ signalling32 n ∧ (e = .borsh → isNaN32 n = false)
  | .f64, _, .float n => n < 2 ^ 64 ∧ (e = .borsh → isNaN64 n = false)
  | .str, _, .str s => s.length ≤ maxStr e
  | .lib l, _, v => LibEnc e l v
  | .ptr t, size, .ptr p =>
    match p with
    | some x => Encodable e t (if e = .borsh then none else size) x
    | none =>
      match t.asLib with
      | some l => e = .borsh ∨ l = .emptyVariant
      | none => e = .borsh → Encodable e t none t.zero
  | .slice t, size, .seq xs =>
    (match size with
      | none => (xs.getD []).length ≤ maxLen e
      | some s => s = (xs.getD []).length) ∧
    ∀ x ∈ xs.getD [],
      match t.uintKind with
      | some w => UintElem w x
      | none => Encodable e t none x
  | .array n t, _, .arr xs =>
    xs.length = n ∧
    ∀ x ∈ xs,
      match t.uintKind with
      | some w => UintElem w x
      | none => Encodable e t none x
  | .map k t, _, .map m =>
    (m.getD []).length ≤ maxLen e ∧ (e = .borsh → orderedKey k = true) ∧
    (m.getD []).Pairwise (fun x y => k.keyEq x.1 y.1 = false) ∧
    ∀ x ∈ m.getD [], k.keyEq x.1 x.1 = true ∧ Encodable e k none x.1 ∧ Encodable e t none x.2
  | .struct fs, _, .struct vs =>
    if e = .borsh ∧ fs.isEnum then
      match vs with
      | .uint n :: _ => n < 256 ∧ EncodableNth e fs (n + 1) vs
      | _ => False
    else EncodableFields e fs [] vs
  | .iface, _, .nil => True
  | _, _, _ => False
def EncodableFields (e : Encoding) : Fields → List (Bytes × Int) → List Val → Prop
  | .nil, _, vs => vs = []
  | .cons m t fs, sm, v :: vs =>
    if m.tag.skip then EncodableFields e fs sm vs
    else
      match announce m t v sm with
      | none => False
      | some sm =>
        (m.exported = true → ¬ absent e m t v → Encodable e t (lookupSize m.name sm) v) ∧
        EncodableFields e fs sm vs
  | .cons _ _ _, _, [] => False
def EncodableNth (e : Encoding) : Fields → Nat → List Val → Prop
  | .cons _ t _, 0, v :: _ => payloadOk t v ∧ Encodable e t none v
  | .cons _ _ fs, i + 1, _ :: vs => EncodableNth e fs i vs
  | _, _, _ => False
end

end Verif.Spec
