import Verif.Model.Dynamic
import Verif.Spec.Copy
/-!
# What variables of type `interface{}` contribute

The words in which C94 is stated.
-/
namespace Verif.Spec
open Verif

/-- The value of a library type that the variable holds, itself or behind one pointer. -/
def offered : Slot → Option (Lib × Val)
  | some (.lib l, v) => some (l, v)
  | some (.ptr (.lib l), .ptr (some x)) => some (l, x)
  | _ => none

/-- The variable does not hold a nil pointer to a library type. -/
def NoNilLib (s : Slot) : Prop := ∀ l v, s = some (.ptr (.lib l), v) → ∃ x, v = .ptr (some x)

/-- The pointer the variable holds, unless it is nil: the type and the value pointed to. -/
def pointee : Slot → Option (Ty × Val)
  | some (.ptr t, .ptr (some x)) => some (t, x)
  | _ => none

/-- No `bin:"optional"`, `bin:"coptional"` or `bin:"sizeof=…"`. -/
structure Unflagged (m : FieldMeta) : Prop where
  option : m.tag.option = false
  coption : m.tag.coption = false
  sizeOf : m.tag.sizeOf = []

/-- The field the encoder sees: of the library type that is offered, or a nil interface. -/
def written (s : Slot) : Ty × Val :=
  match offered s with
  | some (l, v) => (.lib l, v)
  | none => (.iface, .nil)

/-- The struct the encoder sees: its fields. -/
def writtenFields : List Col → Fields
  | [] => .nil
  | .field m t _ :: cs => .cons m t (writtenFields cs)
  | .slot m s :: cs => .cons m (written s).1 (writtenFields cs)

/-- The struct the encoder sees: its values. -/
def writtenVals : List Col → List Val
  | [] => []
  | .field _ _ v :: cs => v :: writtenVals cs
  | .slot _ s :: cs => (written s).2 :: writtenVals cs

/-- The struct the decoder sees: the interface is one more pointer, or a nil interface. -/
def readFields : List Col → Fields
  | [] => .nil
  | .field m t _ :: cs => .cons m t (readFields cs)
  | .slot m s :: cs =>
    match pointee s with
    | some (t, _) => .cons m (.ptr (.ptr t)) (readFields cs)
    | none => .cons m .iface (readFields cs)

/-- What its fields hold before. -/
def readVals : List Col → List Val
  | [] => []
  | .field _ _ v :: cs => v :: readVals cs
  | .slot _ s :: cs =>
    match pointee s with
    | some (_, x) => .ptr (some (.ptr (some x))) :: readVals cs
    | none => .nil :: readVals cs

/-- The struct filled with these values. -/
def refill : List Col → List Val → List Col
  | .field m t _ :: cs, v :: vs => .field m t v :: refill cs vs
  | .slot m s :: cs, v :: vs =>
    (match pointee s, v with
      | some (t, _), .ptr (some y) => .slot m (some (.ptr t, y))
      | _, _ => .slot m s) :: refill cs vs
  | cs, _ => cs

/-- The interface fields have no flags and hold no nil pointers to library types. -/
def Tame (cs : List Col) : Prop := ∀ m s, Col.slot m s ∈ cs → Unflagged m ∧ NoNilLib s

/-- The bytes of the elements of a slice. -/
def slotsWire (e : Encoding) : List Slot → Bytes
  | [] => []
  | s :: xs =>
    (match offered s with
      | some (l, v) => libWire e l .le v
      | none => []) ++ slotsWire e xs

end Verif.Spec
