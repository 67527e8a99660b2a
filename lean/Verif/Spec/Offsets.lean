import Verif.Spec.Layout
import Verif.Spec.FixedSize
/-!
# Spec: where a part of a value stands

`Within e k p p' q q'`: `q` is a part of `p` that starts `k` bytes after its beginning, and `p'` is `p` with that part replaced by
`q'`.  `offsetOf` computes such a `k` from the type alone, where it does not depend on the value.
-/
namespace Verif.Spec
open Verif

/-- The bytes taken by values that stand one after the other. -/
def extent (e : Encoding) (t : Ty) (xs : List Val) : Nat := (xs.map fun x => (wire e t .le false x).length).sum

/-- The bytes taken by the flags of a field that is present. -/
def flagSize (e : Encoding) (m : FieldMeta) : Nat :=
  (if m.tag.option then (if e = .bin then 4 else 1) else 0) + (if e = .borsh ∧ m.tag.coption then 4 else 0)

mutual
/-- A part that starts `k` bytes into a value, and the value with the part replaced. -/
inductive Within (e : Encoding) : Nat → Place → Place → Place → Place → Prop
  | here {o : Order} {s : Bool} {t : Ty} {v v' : Val} : Within e 0 ⟨o, s, t, v⟩ ⟨o, s, t, v'⟩ ⟨o, s, t, v⟩ ⟨o, s, t, v'⟩
  | deref {k : Nat} {o : Order} {s : Bool} {t : Ty} {v v' : Val} {q q' : Place} : (e = .borsh → t.asLib ≠ none) →
      Within e k ⟨o, s, t, v⟩ ⟨o, s, t, v'⟩ q q' →
      Within e k ⟨o, s, .ptr t, .ptr (some v)⟩ ⟨o, s, .ptr t, .ptr (some v')⟩ q q'
  | borshDeref {k : Nat} {o : Order} {s : Bool} {t : Ty} {v v' : Val} {q q' : Place} : e = .borsh → t.asLib = none →
      Within e k ⟨.le, false, t, v⟩ ⟨.le, false, t, v'⟩ q q' →
      Within e k ⟨o, s, .ptr t, .ptr (some v)⟩ ⟨o, s, .ptr t, .ptr (some v')⟩ q q'
  | arrayElem {k n : Nat} {o : Order} {s : Bool} {t : Ty} {pre post : List Val} {v v' : Val} {q q' : Place} :
      losesVarint t = false → Within e k ⟨.le, false, t, v⟩ ⟨.le, false, t, v'⟩ q q' →
      Within e (extent e t pre + k) ⟨o, s, .array n t, .arr (pre ++ v :: post)⟩ ⟨o, s, .array n t, .arr (pre ++ v' :: post)⟩ q q'
  -- behind the length, unless another field carries it
  | sliceElem {k : Nat} {o : Order} {s : Bool} {t : Ty} {pre post : List Val} {v v' : Val} {q q' : Place} :
      losesVarint t = false → Within e k ⟨.le, false, t, v⟩ ⟨.le, false, t, v'⟩ q q' →
      Within e ((if s then 0 else (lenPrefix e (pre.length + 1 + post.length)).length) + extent e t pre + k)
        ⟨o, s, .slice t, .seq (some (pre ++ v :: post))⟩ ⟨o, s, .slice t, .seq (some (pre ++ v' :: post))⟩ q q'
  -- the value of a map entry, in the order in which the entries are written
  | mapValue {k : Nat} {o : Order} {s : Bool} {a t : Ty} {m m' pre post : List (Val × Val)} {x v v' : Val} {q q' : Place} :
      entries e a m = pre ++ (x, v) :: post → entries e a m' = pre ++ (x, v') :: post →
      Within e k ⟨.le, false, t, v⟩ ⟨.le, false, t, v'⟩ q q' →
      Within e ((lenPrefix e m.length).length + extent e a (pre.map Prod.fst) + extent e t (pre.map Prod.snd) +
          (wire e a .le false x).length + k)
        ⟨o, s, .map a t, .map (some m)⟩ ⟨o, s, .map a t, .map (some m')⟩ q q'
  | fieldOf {k : Nat} {o : Order} {s : Bool} {fs : Fields} {vs vs' : List Val} {q q' : Place} : recordIn e fs →
      InFields e [] k fs vs vs' q q' → Within e k ⟨o, s, .struct fs, .struct vs⟩ ⟨o, s, .struct fs, .struct vs'⟩ q q'
  -- the selected variant of a Borsh enum stands behind one byte
  | variantOf {k n : Nat} {o : Order} {s : Bool} {fs : Fields} {vs vs' : List Val} {q q' : Place} : e = .borsh → fs.isEnum = true →
      InVariant e (n + 1) k fs (.uint n :: vs) (.uint n :: vs') q q' →
      Within e (1 + k) ⟨o, s, .struct fs, .struct (.uint n :: vs)⟩ ⟨o, s, .struct fs, .struct (.uint n :: vs')⟩ q q'
/-- A part of one of the fields; `names` are those whose length has been announced. -/
inductive InFields (e : Encoding) : List Bytes → Nat → Fields → List Val → List Val → Place → Place → Prop
  | this {names : List Bytes} {k : Nat} {m : FieldMeta} {t : Ty} {fs : Fields} {v v' : Val} {vs : List Val} {q q' : Place} :
      m.tag.skip = false → m.exported = true →
      (m.tag.option = true ∨ (e = .borsh ∧ m.tag.coption = true) → t.isZero v = false ∧ t.isZero v' = false) →
      Within e k ⟨m.tag.order, (announced m names).contains m.name, t, v⟩
        ⟨m.tag.order, (announced m names).contains m.name, t, v'⟩ q q' →
      InFields e names (flagSize e m + k) (.cons m t fs) (v :: vs) (v' :: vs) q q'
  | later {names : List Bytes} {k : Nat} {m : FieldMeta} {t : Ty} {fs : Fields} {v : Val} {vs vs' : List Val} {q q' : Place} :
      m.tag.skip = false → m.exported = true → InFields e (announced m names) k fs vs vs' q q' →
      InFields e names
        ((fieldWire e m t v (wire e t m.tag.order ((announced m names).contains m.name) v)).length + k)
        (.cons m t fs) (v :: vs) (v :: vs') q q'
  | afterIgnored {names : List Bytes} {k : Nat} {m : FieldMeta} {t : Ty} {fs : Fields} {v v' : Val} {vs vs' : List Val}
      {q q' : Place} : ignored m → InFields e names k fs vs vs' q q' →
      InFields e names k (.cons m t fs) (v :: vs) (v' :: vs') q q'
/-- A part of the field at a position. -/
inductive InVariant (e : Encoding) : Nat → Nat → Fields → List Val → List Val → Place → Place → Prop
  | thisVariant {k : Nat} {m : FieldMeta} {t : Ty} {fs : Fields} {v v' : Val} {vs vs' : List Val} {q q' : Place} :
      Within e k ⟨.le, false, t, v⟩ ⟨.le, false, t, v'⟩ q q' →
      InVariant e 0 k (.cons m t fs) (v :: vs) (v' :: vs') q q'
  | laterVariant {i k : Nat} {m : FieldMeta} {t : Ty} {fs : Fields} {v v' : Val} {vs vs' : List Val} {q q' : Place} :
      InVariant e i k fs vs vs' q q' → InVariant e (i + 1) k (.cons m t fs) (v :: vs) (v' :: vs') q q'
end

/-! ### Offsets that are known from the type -/

/-- A field with flags or an announced length around it. -/
def framed (m : FieldMeta) : Bool := m.tag.option || m.tag.coption || (m.tag.sizeOf != [])

mutual
/-- The offset of a part from the type alone: the path goes through pointers, arrays by index, structs by field number, and in Borsh,
where the length always takes four bytes, through slices.  All that stands before the part must be of fixed size. -/
def offsetOf (e : Encoding) : Ty → List Nat → Option Nat
  | _, [] => some 0
  | .ptr t, i :: p => offsetOf e t (i :: p)
  | .array _ t, i :: p => (fixedSize e true t).bind fun k => (offsetOf e t p).map (i * k + ·)
  | .slice t, i :: p => if e = .borsh then (fixedSize e true t).bind fun k => (offsetOf e t p).map (4 + i * k + ·) else none
  | .struct fs, i :: p => if e = .borsh ∧ fs.isEnum then none else offsetIn e fs i p
  | _, _ => none
def offsetIn (e : Encoding) : Fields → Nat → List Nat → Option Nat
  | .nil, _, _ => none
  | .cons m t _, 0, p => if m.tag.skip || !m.exported || framed m then none else offsetOf e t p
  | .cons m t fs, i + 1, p =>
    if m.tag.skip then offsetIn e fs i p
    else if framed m then none
    else if !m.exported then offsetIn e fs i p
    else (fixedSize e true t).bind fun k => (offsetIn e fs i p).map (k + ·)
end

mutual
/-- The part of a value at the end of a path, with the byte order that applies to it. -/
def partOf (e : Encoding) : Ty → Order → List Nat → Val → Option Place
  | t, o, [], v => some ⟨o, false, t, v⟩
  | .ptr t, o, i :: p, .ptr (some v) => partOf e t (if e = .borsh ∧ t.asLib = none then .le else o) (i :: p) v
  | .array _ t, _, i :: p, .arr xs => xs[i]?.bind fun x => partOf e t .le p x
  | .slice t, _, i :: p, .seq (some xs) => xs[i]?.bind fun x => partOf e t .le p x
  | .struct fs, _, i :: p, .struct vs => partIn e fs i p vs
  | _, _, _, _ => none
def partIn (e : Encoding) : Fields → Nat → List Nat → List Val → Option Place
  | .cons m t _, 0, p, v :: _ => partOf e t m.tag.order p v
  | .cons _ _ fs, i + 1, p, _ :: vs => partIn e fs i p vs
  | _, _, _, _ => none
end

end Verif.Spec
