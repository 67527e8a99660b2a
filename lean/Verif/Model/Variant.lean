import Verif.Model.DecodeReflect
/-!
# variant.go and sighash.go

The hash function is a parameter `H` (any function to 32 bytes; `Model/Sha256` gives SHA-256); `reflect.TypeOf` of a variant's sample value is given as a `Ty`,
`none` standing for a nil interface.  Go maps that are only looked up are functions.
-/
namespace Verif

/-- `TypeID` (variant.go:52): eight bytes. -/
abbrev TypeID := Bytes

/-- `TypeID.Equal` (variant.go:75-77): `bytes.Equal`. -/
def typeIDEqual (id : TypeID) (b : Bytes) : Bool := id == b

/-- `TypeIDFromUvarint32` (variant.go:93-97), `v` a `uint32`. -/
def typeIDFromUvarint32 (v : Nat) : Res TypeID :=
  match putUvarint8 v with
  | .ok bs => .ok (typeIDFromBytes bs)
  | .err x => .err x
  | .panic => .panic

/-- `TypeIDFromUint32` (variant.go:100-104), `v` a `uint32`. -/
def typeIDFromUint32 (v : Nat) (o : Order) : TypeID := typeIDFromBytes (putUint o 4 v)

/-- `TypeIDFromUint8` (variant.go:107-109), `v` a `uint8`. -/
def typeIDFromUint8 (v : Nat) : TypeID := typeIDFromBytes [UInt8.ofNat v]

/-- `Uvarint32FromTypeID` (variant.go:112-116): the number of bytes read is ignored, the value truncated. -/
def uvarint32FromTypeID (id : TypeID) : Nat := (goUvarint id).1 % 2 ^ 32

/-- `Uint32FromTypeID` (variant.go:119-122). -/
def uint32FromTypeID (id : TypeID) (o : Order) : Res Nat := getUint o 4 id

/-- `Uint8FromTypeID` (variant.go:125-127): `vid[0]`. -/
def uint8FromTypeID (id : TypeID) : Nat := (id.headD 0).toNat

/-- `TypeID.Bytes` (variant.go:54-56): `vid[:]`. -/
def TypeID.bytes (id : TypeID) : Bytes := id

/-- `TypeID.Uvarint32` (variant.go:59-61). -/
def TypeID.uvarint32 (id : TypeID) : Nat := uvarint32FromTypeID id

/-- `TypeID.Uint32` (variant.go:64-66): little endian. -/
def TypeID.uint32 (id : TypeID) : Res Nat := uint32FromTypeID id .le

/-- `TypeID.Uint8` (variant.go:69-71). -/
def TypeID.uint8 (id : TypeID) : Nat := uint8FromTypeID id

/-- `TypeIDFromSighash` (variant.go:88-90). -/
def typeIDFromSighash (sh : Bytes) : TypeID := typeIDFromBytes sh

/-! sighash.go -/

/-- `Sighash` (sighash.go:24-28): first eight bytes of the hash of `namespace:name`. -/
def sighash (H : Bytes → Bytes) (ns name : Bytes) : Bytes := (H (ns ++ [58] ++ name)).take 8

/-- "global" (sighash.go:53) -/
def globalNs : Bytes := [103, 108, 111, 98, 97, 108]

/-- "account" (sighash.go:55) -/
def accountNs : Bytes := [97, 99, 99, 111, 117, 110, 116]

/-- `SighashTypeID` (sighash.go:44-46). -/
def sighashTypeID (H : Bytes → Bytes) (ns name : Bytes) : TypeID := typeIDFromBytes (sighash H ns name)

/-! variant definitions -/

/-- `TypeIDEncoding` (variant.go:129-141); other numeric values are `other`. -/
inductive TypeIDEncoding where
  | uvarint32 | uint32 | uint8 | anchor | noTypeID | other
  deriving DecidableEq, Repr

/-- `m[k] = v` -/
def mapSet {κ ν : Type} [DecidableEq κ] (m : κ → Option ν) (k : κ) (v : ν) : κ → Option ν :=
  fun x => if x = k then some v else m x

/-- `VariantType` (variant.go:37-40): name and type of the sample value. -/
structure VariantType where
  name : Bytes
  type : Option Ty

/-- `VariantDefinition` (variant.go:42-47).  A stored nil type and a missing entry are told apart here, the code reads both
as nil. -/
structure VariantDef where
  encoding : TypeIDEncoding
  typeOf : TypeID → Option (Option Ty)
  nameOf : TypeID → Option Bytes
  idOf : Bytes → Option TypeID

/-- The id given to type number `i` (variant.go:170,183,196,209,226).  `uint32(i)` and `uint8(i)` wrap. -/
def variantID (H : Bytes → Bytes) (enc : TypeIDEncoding) (i : Nat) (name : Bytes) : Res TypeID :=
  match enc with
  | .uvarint32 => typeIDFromUvarint32 (i % 2 ^ 32)
  | .uint32 => .ok (typeIDFromUint32 (i % 2 ^ 32) .le)
  | .uint8 => .ok (typeIDFromUint8 (i % 2 ^ 8))
  | .anchor => .ok (typeIDFromBytes (sighash H globalNs name))
  | .noTypeID => .ok (typeIDFromUint8 0)
  | .other => .panic

/-- The loops of `NewVariantDefinition` (variant.go:169-180, 182-193, 195-206, 208-219, 224-235). -/
def addVariants (H : Bytes → Bytes) (d : VariantDef) : Nat → List VariantType → Res VariantDef
  | _, [] => .ok d
  | i, t :: ts =>
    match variantID H d.encoding i t.name with
    | .ok id =>
      addVariants H { d with
        typeOf := mapSet d.typeOf id t.type
        nameOf := mapSet d.nameOf id t.name
        idOf := mapSet d.idOf t.name id } (i + 1) ts
    | .err x => .err x
    | .panic => .panic

/-- `NewVariantDefinition` (variant.go:154-242). -/
def newVariantDef (H : Bytes → Bytes) (enc : TypeIDEncoding) (types : List VariantType) : Res VariantDef :=
  let d : VariantDef := { encoding := enc, typeOf := fun _ => none, nameOf := fun _ => none, idOf := fun _ => none }
  match enc with
  | .other => .panic
  | .noTypeID => if types.length ≠ 1 then .panic else addVariants H d 0 types
  | _ => addVariants H d 0 types

/-- `VariantDefinition.TypeID` (variant.go:244-258). -/
def VariantDef.typeID (d : VariantDef) (name : Bytes) : Res TypeID :=
  match d.idOf name with
  | none => .panic
  | some id => .ok id

/-- Reading the id in `UnmarshalBinaryVariant` (variant.go:282-309). -/
def readVariantID (enc : TypeIDEncoding) : DM TypeID :=
  match enc with
  | .uvarint32 => do let v ← readUvarint32; M.lift (typeIDFromUvarint32 v)
  | .uint32 => do let v ← readUint32 .le; pure (typeIDFromUint32 v .le)
  | .uint8 => do let v ← readUint8; pure (typeIDFromBytes [UInt8.ofNat v])
  | .anchor => readTypeID
  | .noTypeID => pure (typeIDFromUint8 0)
  | .other => pure (List.replicate 8 0)

/-- `BaseVariant` (variant.go:265-268): the dynamic type of `Impl` and its value, `none` for nil. -/
structure BaseVariant where
  id : TypeID
  impl : Option (Ty × Val)

/-- `UnmarshalBinaryVariant` (variant.go:281-353).  For the receiver after a failed call see `Model/VariantInto`. -/
def unmarshalVariant (d : VariantDef) : DM BaseVariant := do
  let id ← readVariantID d.encoding
  match d.typeOf id with
  | some (some (.ptr t)) => do
    let x ← decode t t.zero
    pure { id, impl := some (.ptr t, .ptr (some x)) }
  | some (some t) => do
    let x ← decode t t.zero
    pure { id, impl := some (t, x) }
  | _ => M.err .unknownVariant

/-- `Assign` (variant.go:272-275). -/
def BaseVariant.assign (_ : BaseVariant) (id : TypeID) (impl : Option (Ty × Val)) : BaseVariant := { id, impl }

/-- `Obtain` (variant.go:277-279): the name of an unknown id is the empty string. -/
def BaseVariant.obtain (a : BaseVariant) (d : VariantDef) : TypeID × Bytes × Option (Ty × Val) :=
  (a.id, (d.nameOf a.id).getD [], a.impl)

end Verif
