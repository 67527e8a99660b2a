import Verif.Model.Encoder
/-!
# The Go types and values seen through `reflect`

The reflection codec inspects only kinds, element types, struct fields with their tags, and whether a type is one of
the library's own (un)marshalers.  `Ty` is that view of a Go type, `Val` the view of a Go value.
-/
namespace Verif

/-- `fieldTag` (tags-parser.go:26-35), the result of `parseFieldTag` (modelled in `Model/Tags.lean`). -/
structure FieldTag where
  sizeOf : Bytes := []
  skip : Bool := false
  order : Order := .le
  option : Bool := false
  coption : Bool := false
  binExt : Bool := false
  isEnum : Bool := false
  deriving DecidableEq, Repr

/-- What the codec looks at in a `reflect.StructField`: `Name`, whether the field is exported (`CanInterface` /
`CanSet` on its value), and the parsed tag. -/
structure FieldMeta where
  name : Bytes
  exported : Bool := true
  tag : FieldTag := {}
  deriving DecidableEq, Repr

/-- The library types that implement `BinaryMarshaler` and `BinaryUnmarshaler` (types.go, u128.go, and
`EmptyVariant`, encoder_borsh.go:279-287).  Types with methods written by the user are in
`Model/Custom`. -/
inductive Lib where
  | safeString | bool | hexBytes | varint16 | varuint16 | varuint32 | varint32
  | jsonFloat64 | int64 | uint64 | uint128 | int128 | float128 | emptyVariant
  deriving DecidableEq, Repr

mutual
/-- Go types.  `named` distinguishes `uint64` from a defined type with that underlying type (only observed by the map
key comparison, encoder_borsh.go:383,387).  A `Ty` is a finite tree; recursive Go types
are given by their unrollings, `Spec/Recursive`. -/
inductive Ty where
  | bool
  | uint (w : Width) (named : Bool)
  | int (w : Width) (named : Bool)
  /-- `BorshEnum`, a `uint8` (encoder_borsh.go:276) -/
  | borshEnum
  | f32 | f64 | str
  | lib (l : Lib)
  | ptr (t : Ty)
  | slice (t : Ty)
  | array (n : Nat) (t : Ty)
  | map (k v : Ty)
  | struct (fs : Fields)
  /-- an interface type; only the nil interface value is modelled -/
  | iface
  /-- `int` / `uint`, which the codec does not support -/
  | plainInt | plainUint
  /-- complex numbers, channels, functions, `uintptr`, `unsafe.Pointer` -/
  | other
inductive Fields where
  | nil
  | cons (m : FieldMeta) (t : Ty) (fs : Fields)
end

/-- Go values.  Floats are bit patterns (32 or 64 bits according to the type). -/
inductive Val where
  | bool (b : Bool)
  | uint (n : Nat)
  | int (z : Int)
  | float (bits : Nat)
  | str (s : Bytes)
  /-- `HexBytes`, possibly nil -/
  | bytes (b : Option Bytes)
  /-- `Uint128`, `Int128`, `Float128`: `Lo`, `Hi`, `Endianness` (nil or an order) -/
  | u128 (lo hi : Nat) (endianness : Option Order)
  | ptr (p : Option Val)
  /-- a slice, `none` = nil -/
  | seq (xs : Option (List Val))
  | arr (xs : List Val)
  /-- a map, `none` = nil: its entries in the order `MapKeys` happens to list them -/
  | map (m : Option (List (Val × Val)))
  | struct (fs : List Val)
  /-- nil interface, or a value of an unsupported kind -/
  | nil

/-- `reflect.Kind`, as far as the codec distinguishes kinds. -/
inductive Kind where
  | bool | uint (w : Width) | int (w : Width) | f32 | f64 | string
  | ptr | slice | array | map | struct | iface | plainInt | plainUint | other
  deriving DecidableEq, Repr

/-- `rt.Kind()` of the library types: `type SafeString string` (types.go:28), `type Bool bool` (44),
`type HexBytes []byte` (77), `type Varint16 int16` (112), `Varuint16 uint16` (128), `Varuint32 uint32` (144),
`Varint32 int32` (160), `JSONFloat64 float64` (176), `Int64 int64` (223), `Uint64 uint64` (283), the 128-bit structs
(u128.go:30,193,260) and `type EmptyVariant struct{}`. -/
def Lib.kind : Lib → Kind
  | .safeString => .string
  | .bool => .bool
  | .hexBytes => .slice
  | .varint16 => .int .w16
  | .varuint16 => .uint .w16
  | .varuint32 => .uint .w32
  | .varint32 => .int .w32
  | .jsonFloat64 => .f64
  | .int64 => .int .w64
  | .uint64 => .uint .w64
  | .uint128 | .int128 | .float128 | .emptyVariant => .struct

/-- `rt.Kind()`. -/
def Ty.kind : Ty → Kind
  | .bool => .bool
  | .uint w _ => .uint w
  | .int w _ => .int w
  | .borshEnum => .uint .w8
  | .f32 => .f32
  | .f64 => .f64
  | .str => .string
  | .lib l => l.kind
  | .ptr _ => .ptr
  | .slice _ => .slice
  | .array _ _ => .array
  | .map _ _ => .map
  | .struct _ => .struct
  | .iface => .iface
  | .plainInt => .plainInt
  | .plainUint => .plainUint
  | .other => .other

/-- The element kinds with a bulk path: `reflect.Uint8, Uint16, Uint32, Uint64` (encoder_bin.go:110-111). -/
def Ty.uintKind (t : Ty) : Option Width :=
  match t.kind with
  | .uint w => some w
  | _ => none

/-- Is the type one of the library's own marshalers? -/
def Ty.asLib : Ty → Option Lib
  | .lib l => some l
  | _ => none

/-- Number of struct fields (`rt.NumField()`). -/
def Fields.length : Fields → Nat
  | .nil => 0
  | .cons _ _ fs => fs.length + 1

/-- First field of type `BorshEnum` and tagged as enum: the struct is a complex enum
(encoder_borsh.go:296-305). -/
def Fields.isEnum : Fields → Bool
  | .cons m .borshEnum _ => m.tag.isEnum
  | _ => false

/-- Zero value of a library type. -/
def Lib.zero : Lib → Val
  | .safeString => .str []
  | .bool => .bool false
  | .hexBytes => .bytes none
  | .varint16 | .varint32 | .int64 => .int 0
  | .varuint16 | .varuint32 | .uint64 => .uint 0
  | .jsonFloat64 => .float 0
  | .uint128 | .int128 | .float128 => .u128 0 0 none
  | .emptyVariant => .struct []

mutual
/-- `reflect.Zero(t)` / `reflect.New(t).Elem()`. -/
def Ty.zero : Ty → Val
  | .bool => .bool false
  | .uint _ _ => .uint 0
  | .int _ _ => .int 0
  | .borshEnum => .uint 0
  | .f32 => .float 0
  | .f64 => .float 0
  | .str => .str []
  | .lib l => l.zero
  | .ptr _ => .ptr none
  | .slice _ => .seq none
  | .array n t => .arr (List.replicate n t.zero)
  | .map _ _ => .map none
  | .struct fs => .struct fs.zeros
  | .iface => .nil
  | .plainInt => .int 0
  | .plainUint => .uint 0
  | .other => .nil
def Fields.zeros : Fields → List Val
  | .nil => []
  | .cons _ t fs => t.zero :: fs.zeros
end

/-- Is the float with this bit pattern equal to zero (`+0` or `-0`)? -/
def isZeroFloat (w : Nat) (bits : Nat) : Bool := bits % 2 ^ (w - 1) == 0

/-- `IsZero` of a library value. -/
def Lib.isZero : Lib → Val → Bool
  | .jsonFloat64, .float n => isZeroFloat 64 n
  | _, .str s => s.isEmpty
  | _, .bool b => !b
  | _, .bytes b => b.isNone
  | _, .int z => z == 0
  | _, .uint n => n == 0
  | _, .u128 lo hi e => lo == 0 && hi == 0 && e.isNone
  | .emptyVariant, _ => true
  | _, _ => false

mutual
/-- Go std `reflect.Value.IsZero` (Go 1.22 and later: floats are compared with `== 0`, so `-0` is zero). -/
def Ty.isZero : Ty → Val → Bool
  | .bool, .bool b => !b
  | .uint _ _, .uint n => n == 0
  | .int _ _, .int z => z == 0
  | .borshEnum, .uint n => n == 0
  | .f32, .float n => isZeroFloat 32 n
  | .f64, .float n => isZeroFloat 64 n
  | .str, .str s => s.isEmpty
  | .lib l, v => l.isZero v
  | .ptr _, .ptr p => p.isNone
  | .slice _, .seq xs => xs.isNone
  | .array _ t, .arr xs => xs.all fun x => t.isZero x
  | .map _ _, .map m => m.isNone
  | .struct fs, .struct vs => fs.allZero vs
  | .iface, .nil => true
  | .plainInt, .int z => z == 0
  | .plainUint, .uint n => n == 0
  | .other, .nil => true
  | _, _ => false
def Fields.allZero : Fields → List Val → Bool
  | .cons _ t fs, v :: vs => t.isZero v && fs.allZero vs
  | _, _ => true
end

/-- `sizeof` (decoder.go:140-155): by kind; `int(v)` conversions; panics for other kinds. -/
def sizeofVal (k : Kind) (v : Val) : Res Int :=
  match k, v with
  | .int _, .int z => .ok z
  | .plainInt, .int z => .ok z
  | .uint _, .uint n => .ok (if toSigned 64 n < 0 then 0 else toSigned 64 n)
  | .plainUint, .uint n => .ok (if toSigned 64 n < 0 then 0 else toSigned 64 n)
  | _, _ => .panic

/-- `option` (tags-options.go:22-27). -/
structure Opt where
  optional : Bool := false
  coptional : Bool := false
  sizeOf : Option Int := none
  order : Order := .le
  deriving DecidableEq, Repr

/-- A Go `map[string]int`: association list, most recent binding first. -/
def lookupSize (name : Bytes) : List (Bytes × Int) → Option Int
  | [] => none
  | (n, s) :: rest => if n = name then some s else lookupSize name rest

end Verif
