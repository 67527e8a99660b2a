import Verif.Spec.Copy
/-!
# Skipped and unexported fields

`Spec.SameSent e t x y`: `x` and `y` are the same value of type `t` except in skipped fields and in unexported fields
without a `sizeof` tag, at any depth outside Borsh enums and map keys, and with the same optional fields being zero.

`Spec.Untouched e t old new`: `new` has in its skipped and unexported fields what `old` had there; elements that did not
exist before have zero there.
-/
namespace Verif.Spec

mutual
def SameSent (e : Encoding) : Ty → Val → Val → Prop
  | .ptr t, .ptr (some x), .ptr (some y) => SameSent e t x y
  | .slice t, .seq (some xs), .seq (some ys) =>
    if t.uintKind.isSome then xs = ys else All2 (fun x y => SameSent e t x y) xs ys
  | .array _ t, .arr xs, .arr ys =>
    if t.uintKind.isSome then xs = ys else All2 (fun x y => SameSent e t x y) xs ys
  | .map _ t, .map (some xs), .map (some ys) => All2 (fun x y => x.1 = y.1 ∧ SameSent e t x.2 y.2) xs ys
  | .struct fs, .struct xs, .struct ys => if e = .borsh ∧ fs.isEnum then xs = ys else SameSentFields e fs xs ys
  | _, x, y => x = y
def SameSentFields (e : Encoding) : Fields → List Val → List Val → Prop
  | .nil, _, _ => True
  | .cons m t fs, x :: xs, y :: ys =>
    (if m.tag.skip then True
     else if m.exported then
       SameSent e t x y ∧ (m.tag.option = true ∨ m.tag.coption = true → t.isZero x = t.isZero y)
     else m.tag.sizeOf = [] ∨ x = y) ∧
    SameSentFields e fs xs ys
  | _, xs, ys => xs = ys
end

/-- zero, or pointers to zero -/
def Cleared : Ty → Val → Prop
  | .ptr t, .ptr (some x) => Cleared t x
  | t, x => t.isZero x = true

mutual
def Untouched (e : Encoding) : Ty → Val → Val → Prop
  | .ptr t, .ptr p, .ptr (some y) => Untouched e t (p.getD t.zero) y
  | .slice t, old, .seq ys => .seq ys = old ∨ t.uintKind.isSome = true ∨ ∀ y ∈ ys.getD [], Untouched e t t.zero y
  | .array _ t, .arr xs, .arr ys => t.uintKind.isSome = true ∨ All2 (fun x y => Untouched e t x y) xs ys
  | .map k t, old, .map ys => .map ys = old ∨ ∀ y ∈ ys.getD [], Untouched e k k.zero y.1 ∧ Untouched e t t.zero y.2
  | .struct fs, .struct xs, .struct ys =>
    if e = .borsh ∧ fs.isEnum then
      match ys with
      | .uint n :: _ => UntouchedTail e fs n xs ys
      | _ => False
    else UntouchedFields e fs xs ys
  | _, _, _ => True
def UntouchedFields (e : Encoding) : Fields → List Val → List Val → Prop
  | .nil, _, _ => True
  | .cons m t fs, x :: xs, y :: ys =>
    (if m.tag.skip = true ∨ m.exported = false then y = x
     else Untouched e t x y ∨ (m.tag.binExt = true ∧ y = x) ∨ ((m.tag.option = true ∨ m.tag.coption = true) ∧ Cleared t y)) ∧
    UntouchedFields e fs xs ys
  | _, _, _ => False
/-- All fields after the tag are as they were except number `i`. -/
def UntouchedTail (e : Encoding) : Fields → Nat → List Val → List Val → Prop
  | .cons _ _ fs, i, _ :: xs, _ :: ys => UntouchedNth e fs i xs ys
  | _, _, _, _ => False
/-- All fields are as they were except number `i`. -/
def UntouchedNth (e : Encoding) : Fields → Nat → List Val → List Val → Prop
  | .cons _ t _, 0, x :: xs, y :: ys => Untouched e t x y ∧ ys = xs
  | .cons _ _ fs, i + 1, x :: xs, y :: ys => y = x ∧ UntouchedNth e fs i xs ys
  | _, _, _, _ => False
end

end Verif.Spec
