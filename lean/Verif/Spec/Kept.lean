import Verif.Spec.Shape
import Verif.Spec.Copy
/-!
# What decoding leaves in place

`Spec.SameKept e t a b`: two earlier contents `a`, `b` of a variable of type `t` that agree wherever decoding may leave
something in place: maps (an empty one is not assigned), in Borsh slices (the same) and enum variants, skipped, unexported
and extension fields, interfaces, and pointers behind an optional pointer.

`Spec.overwrites e t`: the type has no such place.
-/
namespace Verif.Spec

/-- a pointer to a pointer -/
def isPtrPtr : Ty → Bool
  | .ptr (.ptr _) => true
  | _ => false

mutual
def SameKept (e : Encoding) : Ty → Val → Val → Prop
  | .ptr t, .ptr p, .ptr q => SameKept e t (p.getD t.zero) (q.getD t.zero)
  | .slice _, x, y => e = .borsh → x = y
  | .array _ t, .arr xs, .arr ys => All2 (SameKept e t) xs ys
  | .map _ _, x, y => x = y
  | .struct fs, .struct xs, .struct ys => if e = .borsh ∧ fs.isEnum then xs = ys else SameKeptFields e fs xs ys
  | .iface, x, y => x = y
  | .lib .emptyVariant, x, y => x = y
  | .ptr _, _, _ | .array _ _, _, _ | .struct _, _, _ => False
  | _, _, _ => True
def SameKeptFields (e : Encoding) : Fields → List Val → List Val → Prop
  | .nil, _, _ => True
  | .cons m t fs, x :: xs, y :: ys =>
    (if m.tag.skip ∨ m.tag.binExt ∨ ¬ m.exported then x = y
     else (e = .borsh ∧ t.directLib.isSome) ∨
       (SameKept e t x y ∧ ((m.tag.option ∨ m.tag.coption) → isPtrPtr t → x = y))) ∧
    SameKeptFields e fs xs ys
  | _, _, _ => False
end

mutual
def overwrites (e : Encoding) : Ty → Bool
  | .ptr t => overwrites e t
  | .slice _ => e != .borsh
  | .array _ t => overwrites e t
  | .map _ _ => false
  | .struct fs => !(e == .borsh && fs.isEnum) && overwritesFields e fs
  | .iface => false
  | _ => true
def overwritesFields (e : Encoding) : Fields → Bool
  | .nil => true
  | .cons m t fs => !m.tag.skip && !m.tag.binExt && m.exported &&
    ((e == .borsh && t.directLib.isSome) || (overwrites e t && !((m.tag.option || m.tag.coption) && isPtrPtr t))) &&
    overwritesFields e fs
end

end Verif.Spec
