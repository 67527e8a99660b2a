import Verif.Spec.Wire
import Verif.Spec.Utf8
/-!
# What a decoder gets back

`Spec.Returns`: the encodable values whose encoding the decoder can read back.  `Spec.copy`: the value it then stores in
a fresh variable.  `Spec.Same`: equality of Go values up to what no encoding of this library transmits (nil against
empty, map order, the `Endianness` of a 128-bit value, skipped fields, `-0` in an absent field, unselected variants).
-/
namespace Verif.Spec

/-- Longest byte string, slice or map whose length a decoder accepts. -/
def readMax : Encoding → Nat
  | .compactU16 => 65535
  | _ => 2 ^ 31 - 1

instance (e : Encoding) (m : FieldMeta) (t : Ty) (v : Val) : Decidable (absent e m t v) := by
  unfold absent; infer_instance

/-- A library value as read back: `HexBytes` is never nil, `Endianness` is not transmitted. -/
def copyLib : Val → Val
  | .bytes b => .bytes (some (b.getD []))
  | .u128 lo hi _ => .u128 lo hi none
  | v => v

mutual
/-- The value read back into a fresh variable. -/
def copy (e : Encoding) : Ty → Val → Val
  | .lib _, v => copyLib v
  | .ptr t, .ptr p => .ptr (p.map fun x => copy e t x)
  | .slice t, .seq xs =>
    if e = .borsh ∧ (xs.getD []).isEmpty then .seq none
    else .seq (some ((xs.getD []).map fun x =>
      match t.uintKind with
      | some _ => x
      | none => copy e t x))
  | .array _ t, .arr xs =>
    .arr (xs.map fun x =>
      match t.uintKind with
      | some _ => x
      | none => copy e t x)
  | .map k t, .map m =>
    if (m.getD []).isEmpty then .map none
    else .map (some ((entries e k (m.getD [])).map fun x => (copy e k x.1, copy e t x.2)))
  | .struct fs, .struct vs =>
    if e = .borsh ∧ fs.isEnum then
      match vs with
      | .uint n :: _ => .struct (.uint n :: (copyNth e fs (n + 1) vs).tail)
      | _ => .struct vs
    else .struct (copyFields e fs vs)
  | _, v => v
/-- Field by field; what is not transmitted is zero. -/
def copyFields (e : Encoding) : Fields → List Val → List Val
  | .cons m t fs, v :: vs =>
    (if m.tag.skip ∨ m.exported = false ∨ absent e m t v then t.zero else copy e t v) :: copyFields e fs vs
  | _, _ => []
/-- The `i`-th field, the others zero. -/
def copyNth (e : Encoding) : Fields → Nat → List Val → List Val
  | .cons _ t fs, 0, v :: _ => copy e t v :: fs.zeros
  | .cons _ t fs, i + 1, _ :: vs => t.zero :: copyNth e fs i vs
  | _, _, _ => []
end

/-- Library values that can be read back: length accepted by the decoder, `SafeString` valid UTF-8. -/
def LibRet (e : Encoding) : Lib → Val → Prop
  | .safeString, .str s => s.length ≤ readMax e ∧ Utf8 s
  | .hexBytes, .bytes b => (b.getD []).length ≤ readMax e
  | _, _ => True

mutual
/-- Encodable values that can be read back.  `sized` says that an earlier field carries the length. -/
def Returns (e : Encoding) : Ty → Bool → Val → Prop
  | .str, _, .str s => s.length ≤ readMax e
  | .lib l, _, v => LibRet e l v
  | .ptr t, sized, .ptr p =>
    (e = .borsh → sized = false) ∧
    match p with
    | none => False
    | some x => Returns e t sized x
  | .slice t, sized, .seq xs =>
    -- without a prefix only the memory limits the length
    (xs.getD []).length ≤ (if sized then 2 ^ 31 - 1 else readMax e) ∧
    match t.uintKind with
    | some _ => True
    | none =>
      -- the decoder refuses a length larger than the number of bytes that follow
      (xs.getD []).length ≤ ((xs.getD []).flatMap fun x => wire e t .le false x).length ∧
      ∀ x ∈ xs.getD [], Returns e t false x
  | .array n t, _, .arr xs =>
    match t.uintKind with
    | some _ => n < 2 ^ 31
    | none => ∀ x ∈ xs, Returns e t false x
  | .map k t, _, .map m =>
    (m.getD []).length ≤ readMax e ∧
    (entries e k (m.getD [])).Pairwise (fun x y => k.keyEq (copy e k x.1) (copy e k y.1) = false) ∧
    ∀ x ∈ m.getD [], Returns e k false x.1 ∧ Returns e t false x.2
  | .struct fs, _, .struct vs =>
    if e = .borsh ∧ fs.isEnum then
      match vs with
      | .uint n :: _ => ReturnsNth e fs (n + 1) vs
      | _ => False
    else ReturnsFields e fs [] false vs
  | _, _, _ => True
/-- Conditions on tags, field by field.  `names` are the names announced by `sizeof=`, `seen` says that a
`binary_extension` field came before. -/
def ReturnsFields (e : Encoding) : Fields → List Bytes → Bool → List Val → Prop
  | .cons m t fs, names, seen, v :: vs =>
    if m.tag.skip then ReturnsFields e fs names seen vs
    else
      -- extensions last
      (seen = true → m.tag.binExt = true) ∧
      (if m.exported then
        -- Borsh reads library types with the order of whatever was read before
        (e = .borsh → m.tag.order = .le) ∧
        -- an extension that occupies no bytes cannot be told from one that is missing
        (m.tag.binExt = true →
          fieldWire e m t v (wire e t m.tag.order ((announced m names).contains m.name) v) ≠ []) ∧
        (m.tag.sizeOf ≠ [] → m.tag.sizeOf ≠ m.name ∧ (e = .borsh → t.directLib = none)) ∧
        -- optional library types are not read the way they are written
        (m.tag.option = true → t.asLib = none ∧ (e = .borsh → t.directLib = none)) ∧
        (e = .borsh → m.tag.coption = true → t.directLib = none ∧ (m.tag.option = true → t.baseLib = false)) ∧
        (¬ absent e m t v → Returns e t ((announced m names).contains m.name) v)
      else m.tag.sizeOf = []) ∧
      ReturnsFields e fs (announced m names) (seen || m.tag.binExt) vs
  | _, _, _, _ => True
def ReturnsNth (e : Encoding) : Fields → Nat → List Val → Prop
  | .cons _ t _, 0, v :: _ => Returns e t false v
  | .cons _ _ fs, i + 1, _ :: vs => ReturnsNth e fs i vs
  | _, _, _ => True
end

/-! ### Equality of Go values -/

/-- Two lists of the same length with related elements. -/
def All2 {α β : Type} (r : α → β → Prop) : List α → List β → Prop
  | [], [] => True
  | x :: xs, y :: ys => r x y ∧ All2 r xs ys
  | _, _ => False

/-- Library values: nil and empty `HexBytes` are identified, `Endianness` is ignored. -/
def SameLib : Val → Val → Prop
  | .bytes a, .bytes b => a.getD [] = b.getD []
  | .u128 lo hi _, .u128 lo' hi' _ => lo = lo' ∧ hi = hi'
  | v, w => v = w

mutual
/-- `w` is the same Go value as `v`, up to: nil against empty slices and maps, the order of map entries, `Endianness`,
and the fields that are not transmitted, which are zero in `w`. -/
def Same (e : Encoding) : Ty → Val → Val → Prop
  | .lib _, v, w => SameLib v w
  | .ptr t, .ptr (some x), .ptr (some y) => Same e t x y
  | .slice t, .seq xs, .seq ys =>
    All2 (fun x y => match t.uintKind with | some _ => x = y | none => Same e t x y) (xs.getD []) (ys.getD [])
  | .array _ t, .arr xs, .arr ys =>
    All2 (fun x y => match t.uintKind with | some _ => x = y | none => Same e t x y) xs ys
  | .map k t, .map m, .map m' =>
    ∃ l : List (Val × Val), l.Perm (m.getD []) ∧
      All2 (fun x y => Same e k x.1 y.1 ∧ Same e t x.2 y.2) l (m'.getD [])
  | .struct fs, .struct vs, .struct ws =>
    if e = .borsh ∧ fs.isEnum then
      match vs, ws with
      | .uint n :: _, .uint n' :: _ => n = n' ∧ SameNth e fs (n + 1) vs ws
      | _, _ => False
    else SameFields e fs vs ws
  | _, v, w => v = w
/-- Field by field; a field written as absent is zero on both sides. -/
def SameFields (e : Encoding) : Fields → List Val → List Val → Prop
  | .nil, [], [] => True
  | .cons m t fs, v :: vs, w :: ws =>
    (if m.tag.skip = true ∨ m.exported = false then w = t.zero
     else if absent e m t v then t.isZero w = true
     else Same e t v w) ∧ SameFields e fs vs ws
  | _, _, _ => False
/-- The selected variant. -/
def SameNth (e : Encoding) : Fields → Nat → List Val → List Val → Prop
  | .cons _ t _, 0, v :: _, w :: _ => Same e t v w
  | .cons _ _ fs, i + 1, _ :: vs, _ :: ws => SameNth e fs i vs ws
  | _, _, _, _ => False
end

end Verif.Spec
