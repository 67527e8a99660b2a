import Verif.Model.DecodeReflect
/-!
# Spec: the classes of types that the codec treats specially

The specifications use some predicates on types together with the model (`uintKind`, `isEnum`, `baseLib`, `directLib`, `lookupSize`,
`sizeofVal`).  Here is what they are meant to say.
-/
namespace Verif.Spec
open Verif

/-- Types of kind `Uint8` … `Uint64`: slices and arrays of these are written in one piece. -/
inductive Unsigned : Ty → Width → Prop where
  | uint (w : Width) (named : Bool) : Unsigned (.uint w named) w
  | borshEnum : Unsigned .borshEnum .w8
  | varuint16 : Unsigned (.lib .varuint16) .w16
  | varuint32 : Unsigned (.lib .varuint32) .w32
  | uint64 : Unsigned (.lib .uint64) .w64

/-- `T`, `*T`, `**T`, … for a library type `T`. -/
inductive PointsToLib : Ty → Prop where
  | lib (l : Lib) : PointsToLib (.lib l)
  | ptr {t : Ty} (h : PointsToLib t) : PointsToLib (.ptr t)

/-- What a `sizeof=` field of type `t` with value `v` announces: integers announce themselves, unsigned ones that are no `int` nothing. -/
inductive Announces : Ty → Val → Int → Prop where
  | int (w : Width) (named : Bool) (z : Int) : Announces (.int w named) (.int z) z
  | plainInt (z : Int) : Announces .plainInt (.int z) z
  | varint16 (z : Int) : Announces (.lib .varint16) (.int z) z
  | varint32 (z : Int) : Announces (.lib .varint32) (.int z) z
  | int64 (z : Int) : Announces (.lib .int64) (.int z) z
  | small {t : Ty} {w : Width} (h : Unsigned t w) {n : Nat} (hn : n < 2 ^ 63) : Announces t (.uint n) n
  | large {t : Ty} {w : Width} (h : Unsigned t w) {n : Nat} (hn : 2 ^ 63 ≤ n) (hn' : n < 2 ^ 64) : Announces t (.uint n) 0
  | plainSmall {n : Nat} (hn : n < 2 ^ 63) : Announces .plainUint (.uint n) n
  | plainLarge {n : Nat} (hn : 2 ^ 63 ≤ n) (hn' : n < 2 ^ 64) : Announces .plainUint (.uint n) 0

end Verif.Spec
