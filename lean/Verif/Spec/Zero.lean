import Verif.Model.Types
/-!
# The zero value of a Go type

A value is "zero" if it compares equal to the zero value of its type with Go's `==`.  Floats have two zeros; apart from
their sign the value is identical to the zero value.
-/
namespace Verif.Spec

mutual
/-- The value with every negative zero outside pointers, slices and maps replaced by the positive one. -/
def plus : Ty → Val → Val
  | .f32, .float n => .float (if n = 0x80000000 then 0 else n)
  | .f64, .float n | .lib .jsonFloat64, .float n => .float (if n = 0x8000000000000000 then 0 else n)
  | .array _ t, .arr xs => .arr (xs.map (plus t))
  | .struct fs, .struct vs => .struct (plusFields fs vs)
  | _, v => v
def plusFields : Fields → List Val → List Val
  | .cons _ t fs, v :: vs => plus t v :: plusFields fs vs
  | _, vs => vs
end

mutual
/-- The bit patterns of the floats outside pointers, slices and maps have the size of their type. -/
def FloatSized : Ty → Val → Prop
  | .f32, .float n => n < 2 ^ 32
  | .f64, .float n | .lib .jsonFloat64, .float n => n < 2 ^ 64
  | .array _ t, .arr xs => ∀ x ∈ xs, FloatSized t x
  | .struct fs, .struct vs => FloatSizedFields fs vs
  | _, _ => True
def FloatSizedFields : Fields → List Val → Prop
  | .cons _ t fs, v :: vs => FloatSized t v ∧ FloatSizedFields fs vs
  | _, _ => True
end

end Verif.Spec
