import Verif.Spec.Wire
/-!
# Spec: the least and the greatest number of bytes of a type

Computed from the declaration alone, once for what is written and once for what is read (`r`).  The two differ where the decoder
is less strict (a varint may have padding, extension fields may be missing) and where it needs more (there is always something
behind a pointer).
-/
namespace Verif.Spec
open Verif

/-- Bytes of the shortest length prefix. -/
def prefixLeast : Encoding → Nat
  | .borsh => 4
  | .other => 0
  | _ => 1

/-- Bytes of a presence flag. -/
def flagBytes (e : Encoding) : Nat := if e = .bin then 4 else 1

def libLeast (e : Encoding) : Lib → Nat
  | .safeString | .hexBytes => prefixLeast e
  | .bool | .varint16 | .varint32 | .varuint16 | .varuint32 => 1
  | .jsonFloat64 | .int64 | .uint64 => 8
  | .uint128 | .int128 | .float128 => 16
  | .emptyVariant => 0

mutual
/-- The least number of bytes.  `sized` says that an earlier field carries the length. -/
def least (r : Bool) (e : Encoding) : Ty → Bool → Nat
  | .bool, _ | .borshEnum, _ => 1
  | .uint w _, _ | .int w _, _ => w.bytes
  | .f32, _ => 4
  | .f64, _ => 8
  | .str, _ => if e = .bin then 8 else prefixLeast e
  | .lib l, _ => libLeast e l
  | .ptr t, sized =>
    if r then least r e t sized
    -- nil is written as nothing, but in Borsh as the zero value; a nil pointer to a library type is refused in the others
    else if e = .borsh then (if t.asLib = none then least r e t false else 0) else (if t.asLib = none then 0 else least r e t false)
  | .slice _, sized => if sized then 0 else prefixLeast e
  | .array n t, _ =>
    n * (match t.uintKind with
      | some w => w.bytes
      | none => least r e t false)
  | .map _ _, _ => prefixLeast e
  | .struct fs, _ => if e = .borsh ∧ fs.isEnum then 1 + leastVariant r e fs else leastFields r e fs []
  | _, _ => 0
/-- The fields together; an optional field may be absent.  The Borsh decoder does not look at the tags of library types. -/
def leastFields (r : Bool) (e : Encoding) : Fields → List Bytes → Nat
  | .nil, _ => 0
  | .cons m t fs, names =>
    if m.tag.skip then leastFields r e fs names
    else
      (if m.exported && !(r && m.tag.binExt) then
        (if r && e == .borsh && t.directLib.isSome then least r e t false
        else if m.tag.option then flagBytes e
        else if e = .borsh ∧ m.tag.coption then 4
        else least r e t ((announced m names).contains m.name))
      else 0) + leastFields r e fs (announced m names)
/-- The smallest variant of an enum (the first field is the tag). -/
def leastVariant (r : Bool) (e : Encoding) : Fields → Nat
  | .nil => 0
  | .cons _ _ fs => leastOf r e fs
def leastOf (r : Bool) (e : Encoding) : Fields → Nat
  | .nil => 0
  | .cons _ t .nil => least r e t false
  | .cons _ t fs => min (least r e t false) (leastOf r e fs)
end

/-- `none`: no bound -/
def libMost (r : Bool) : Lib → Option Nat
  | .safeString | .hexBytes => none
  | .bool => some 1
  | .varint16 | .varuint16 => some (if r then 10 else 3)
  | .varint32 | .varuint32 => some (if r then 10 else 5)
  | .jsonFloat64 | .int64 | .uint64 => some 8
  | .uint128 | .int128 | .float128 => some 16
  | .emptyVariant => some 0

mutual
/-- Types without strings, slices and maps: their size has a bound. -/
def Bounded (e : Encoding) : Ty → Bool
  | .str | .slice _ | .map _ _ => false
  | .lib l => (libMost false l).isSome
  | .ptr t | .array _ t => Bounded e t
  | .struct fs => BoundedFields e (e == .borsh && fs.isEnum) fs
  | _ => true
/-- In an enum every field counts, otherwise those that are written. -/
def BoundedFields (e : Encoding) (all : Bool) : Fields → Bool
  | .nil => true
  | .cons m t fs => ((!all && (m.tag.skip || !m.exported)) || Bounded e t) && BoundedFields e all fs
end

mutual
/-- The greatest number of bytes of a bounded type. -/
def most (r : Bool) (e : Encoding) : Ty → Nat
  | .bool | .borshEnum => 1
  | .uint w _ | .int w _ => w.bytes
  | .f32 => 4
  | .f64 => 8
  | .lib l => (libMost r l).getD 0
  | .ptr t => most r e t
  | .array n t =>
    n * (match t.uintKind with
      | some w => w.bytes
      | none => most r e t)
  | .struct fs => if e = .borsh ∧ fs.isEnum then 1 + mostVariant r e fs else mostFields r e fs
  | _ => 0
def mostFields (r : Bool) (e : Encoding) : Fields → Nat
  | .nil => 0
  | .cons m t fs =>
    (if m.tag.skip || !m.exported then 0
    else (if m.tag.option then flagBytes e else 0) + (if e = .borsh ∧ m.tag.coption then 4 else 0) + most r e t) + mostFields r e fs
/-- The largest variant of an enum. -/
def mostVariant (r : Bool) (e : Encoding) : Fields → Nat
  | .nil => 0
  | .cons _ _ fs => mostOf r e fs
def mostOf (r : Bool) (e : Encoding) : Fields → Nat
  | .nil => 0
  | .cons _ t fs => max (most r e t) (mostOf r e fs)
end

end Verif.Spec
