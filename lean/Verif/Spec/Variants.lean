import Verif.Spec.Numbers
import Verif.Model.Variant
/-! What a variant id looks like on the wire, and as a `TypeID`. -/
namespace Verif.Spec

/-- Eight bytes, zero-filled. -/
def pad8 (w : Bytes) : Bytes := (w ++ List.replicate 8 0).take 8

/-- The bytes "global:" -/
def globalColon : Bytes := [0x67, 0x6c, 0x6f, 0x62, 0x61, 0x6c, 0x3a]

/-- `w` is a wire form of the id of the `i`-th variant, called `name`, with hash function `H`. -/
def IDWire (H : Bytes → Bytes) (enc : TypeIDEncoding) (i : Nat) (name w : Bytes) : Prop :=
  match enc with
  | .uint8 => w.length = 1 ∧ leValue w = i
  | .uint32 => w.length = 4 ∧ leValue w = i
  | .uvarint32 => Groups w ∧ w.length ≤ 10 ∧ leb w = i
  | .anchor => w = (H (globalColon ++ name)).take 8
  | .noTypeID => w = []
  | .other => False

/-- `w` is the wire form of an id that no variant in the list has. -/
def IDUnknown (H : Bytes → Bytes) (enc : TypeIDEncoding) (types : List VariantType) (w : Bytes) : Prop :=
  match enc with
  | .uint8 => w.length = 1 ∧ types.length ≤ leValue w
  | .uint32 => w.length = 4 ∧ types.length ≤ leValue w
  | .uvarint32 => Groups w ∧ w.length ≤ 10 ∧ leb w < 2 ^ 32 ∧ types.length ≤ leb w
  | .anchor => w.length = 8 ∧ ∀ t ∈ types, (H (globalColon ++ t.name)).take 8 ≠ w
  | .noTypeID => False
  | .other => False

/-- There are enough ids for the variants: not more variants than numbers, no collision between hashes. -/
def IDsSuffice (H : Bytes → Bytes) (enc : TypeIDEncoding) (types : List VariantType) : Prop :=
  match enc with
  | .uint8 => types.length ≤ 256
  | .uint32 => types.length ≤ 2 ^ 32
  | .uvarint32 => types.length ≤ 2 ^ 32
  | .anchor => (∀ x, (H x).length = 32) ∧ (types.map fun t => (H (globalColon ++ t.name)).take 8).Nodup
  | .noTypeID => types.length = 1
  | .other => False

/-- Decoding into a fresh variable of the variant's type, handing out a pointer for pointer types. -/
def variantBody (t : Option Ty) (d : Dec) : Res (Ty × Val) × Dec :=
  match t with
  | none => (.err .unknownVariant, d)
  | some (.ptr u) =>
    match decode u u.zero d with
    | (.ok x, d') => (.ok (.ptr u, .ptr (some x)), d')
    | (.err e, d') => (.err e, d')
    | (.panic, d') => (.panic, d')
  | some u =>
    match decode u u.zero d with
    | (.ok x, d') => (.ok (u, x), d')
    | (.err e, d') => (.err e, d')
    | (.panic, d') => (.panic, d')

end Verif.Spec
