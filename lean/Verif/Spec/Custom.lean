import Verif.Model.Custom
import Verif.Spec.Copy
/-!
# What a type with methods of its own is written as and read from

`Spec.Written`: which bytes a value is written as.  `Spec.ReadAs`: which value some bytes are read as.  Where a method is called,
both ask only what the method does; everywhere else they say what is written around it.
-/
namespace Verif.Spec

/-- On any encoder with this encoding and order whose writer does not fail, `w` succeeds and hands the bytes `bs` to the writer, in any
number of pieces. -/
def MethodWrites (e : Encoding) (o : Order) (w : EM Unit) (bs : Bytes) : Prop :=
  ∀ s : Enc, s.enc = e → (∀ l c, s.sink l c = true) → s.cur = some o →
    ∃ (pieces : List Bytes) (c : Option Order), pieces.flatten = bs ∧
      w s = (.ok (), { s with log := s.log ++ pieces, count := s.count + pieces.flatten.length, cur := c })

/-- On any decoder with this encoding and order that has `bs` in front of it, `g` succeeds with `x` and has read `bs`.  In Borsh it must
leave the order little endian, as the field after it may be read without setting it (decoder_borsh.go:411-434). -/
def MethodReads (e : Encoding) (o : Order) (g : DM Val) (bs : Bytes) (x : Val) : Prop :=
  ∀ (d : Dec) (tail : Bytes), d.enc = e → 0 ≤ d.pos → d.pos ≤ d.data.length → d.data.drop d.pos.toNat = bs ++ tail →
    d.cur = some o → ∃ c : Option Order, (e = .borsh → c = some .le) ∧ g d = (.ok x, { d with pos := d.pos + bs.length, cur := c })

/-- `bs` is the concatenation of pieces related to the elements. -/
def Concat {α : Type} (P : α → Bytes → Prop) : List α → Bytes → Prop
  | [], bs => bs = []
  | x :: xs, bs => ∃ b rest, bs = b ++ rest ∧ P x b ∧ Concat P xs rest

/-- The elements of a slice or array: unsigned integer kinds go in bulk, whatever methods they have. -/
def Elems (c : CTy) (P : Val → Bytes → Prop) (xs : List Val) (bs : Bytes) : Prop :=
  match c.erase.uintKind with
  | some w => (∀ x ∈ xs, UintElem w x) ∧ bs = xs.flatMap (uintWire w)
  | none => Concat P xs bs

mutual
/-- The value is written as `bs`. -/
def Written (e : Encoding) : CTy → Order → Option Int → Val → Bytes → Prop
  | .plain t, o, size, v, bs => Encodable e t size v ∧ bs = wire e t o size.isSome v
  | .user c m _, o, size, v, bs =>
    match m with
    | .value f => MethodWrites e o (f v) bs
    | _ => Written e c o size v bs
  | .ptr c, o, size, .ptr p, bs =>
    match c.method, p with
    | .value f, some x => MethodWrites e o (f x) bs
    | .value _, none => e = .borsh ∧ bs = []
    | .pointer f, some x => MethodWrites e o (f (some x)) bs
    | .pointer f, none => if e = .borsh then bs = [] else MethodWrites e o (f none) bs
    | .none, some x => if e = .borsh then Written e c .le none x bs else Written e c o size x bs
    | .none, none => if e = .borsh then Written e c .le none c.erase.zero bs else bs = []
  | .slice c, _, size, .seq xs, bs =>
    (match size with
      | none => (xs.getD []).length ≤ maxLen e
      | some s => s = (xs.getD []).length) ∧
    ∃ body, bs = (if size.isSome then [] else lenPrefix e (xs.getD []).length) ++ body ∧
      Elems c (fun x b => Written e c .le none x b) (xs.getD []) body
  | .array n c, _, _, .arr xs, bs => xs.length = n ∧ Elems c (fun x b => Written e c .le none x b) xs bs
  | .map k c, _, _, .map m, bs =>
    (m.getD []).length ≤ maxLen e ∧ (e = .borsh → orderedKey k = true) ∧
    (m.getD []).Pairwise (fun x y => k.keyEq x.1 y.1 = false) ∧
    (∀ x ∈ m.getD [], k.keyEq x.1 x.1 = true ∧ Encodable e k none x.1) ∧
    ∃ body, bs = lenPrefix e (m.getD []).length ++ body ∧
      Concat (fun x b => ∃ b', b = wire e k .le false x.1 ++ b' ∧ Written e c .le none x.2 b') (entries e k (m.getD [])) body
  | .struct fs, _, _, .struct vs, bs =>
    if e = .borsh ∧ fs.isEnum then
      match vs with
      | .uint n :: _ => n < 256 ∧ n + 1 < fs.length ∧ ∃ b, bs = fixed .le 1 n ++ b ∧ WrittenNth e fs (n + 1) vs b
      | _ => False
    else WrittenFields e fs [] vs bs
  | _, _, _, _, _ => False
/-- The fields are written as `bs`. -/
def WrittenFields (e : Encoding) : CFields → List (Bytes × Int) → List Val → Bytes → Prop
  | .nil, _, vs, bs => vs = [] ∧ bs = []
  | .cons m c fs, sm, v :: vs, bs =>
    if m.tag.skip then WrittenFields e fs sm vs bs
    else
      match announce m c.erase v sm with
      | none => False
      | some sm =>
        if m.exported then
          ∃ body rest, bs = fieldWire e m c.erase v body ++ rest ∧
            (¬ absent e m c.erase v → Written e c m.tag.order (lookupSize m.name sm) v body) ∧
            WrittenFields e fs sm vs rest
        else WrittenFields e fs sm vs bs
  | .cons _ _ _, _, [], _ => False
/-- Field `i` of a Borsh enum is written as `bs`. -/
def WrittenNth (e : Encoding) : CFields → Nat → List Val → Bytes → Prop
  | .cons _ c _, 0, v :: _, bs => WrittenPayload e c v bs
  | .cons _ _ fs, i + 1, _ :: vs, bs => WrittenNth e fs i vs bs
  | _, _, _, _ => False
/-- The payload of a Borsh enum is written as `bs`; methods are not called. -/
def WrittenPayload (e : Encoding) : CTy → Val → Bytes → Prop
  | .plain t, v, bs => payloadOk t v ∧ Encodable e t none v ∧ bs = wire e t .le false v
  | .user c _ _, v, bs => WrittenVariant e c v bs
  | .ptr c, .ptr p, bs =>
    match p with
    | none => bs = []
    | some x => WrittenVariant e c x bs
  | .ptr _, _, _ => False
  | .struct fs, .struct vs, bs =>
    if e = .borsh ∧ fs.isEnum then
      match vs with
      | .uint n :: _ => n < 256 ∧ n + 1 < fs.length ∧ ∃ b, bs = fixed .le 1 n ++ b ∧ WrittenNth e fs (n + 1) vs b
      | _ => False
    else WrittenFields e fs [] vs bs
  | .struct _, _, _ => False
  | _, _, bs => bs = []
def WrittenVariant (e : Encoding) : CTy → Val → Bytes → Prop
  | .plain t, v, bs => payloadBase t = true ∧ Encodable e t none v ∧ bs = wire e t .le false v
  | .user c _ _, v, bs => WrittenVariant e c v bs
  | .struct fs, .struct vs, bs =>
    if e = .borsh ∧ fs.isEnum then
      match vs with
      | .uint n :: _ => n < 256 ∧ n + 1 < fs.length ∧ ∃ b, bs = fixed .le 1 n ++ b ∧ WrittenNth e fs (n + 1) vs b
      | _ => False
    else WrittenFields e fs [] vs bs
  | .struct _, _, _ => False
  | _, _, bs => bs = []
end

/-- A type of the main model read from bytes. -/
def ReadPlain (e : Encoding) (t : Ty) (o : Order) (size : Option Int) (bs : Bytes) (r : Val) : Prop :=
  ∃ v, Encodable e t size v ∧ Returns e t size.isSome v ∧ bs = wire e t o size.isSome v ∧ r = copy e t v

/-- The flags of a field, then what `P` says.  A type with `UnmarshalWithDecoder` cannot be optional. -/
def ReadField (e : Encoding) (m : FieldMeta) (c : CTy) (P : Bytes → Val → Prop) (bs : Bytes) (r : Val) : Prop :=
  if m.tag.option then
    c.reader = none ∧
    ((bs = flag e false ∧ r = c.erase.zero) ∨
      ∃ body, bs = flag e true ++ body ∧
        if e = .borsh ∧ m.tag.coption then c.leadsToReader = false ∧ ∃ b, body = cflag true ++ b ∧ P b r
        else P body r)
  else if e = .borsh ∧ m.tag.coption then
    c.reader = none ∧ ((bs = cflag false ∧ r = c.erase.zero) ∨ ∃ b, bs = cflag true ++ b ∧ P b r)
  else P bs r

mutual
/-- The bytes `bs` are read into a fresh variable as `r`. -/
def ReadAs (e : Encoding) : CTy → Order → Option Int → Bytes → Val → Prop
  | .plain t, o, size, bs, r => ReadPlain e t o size bs r
  | .user c _ u, o, size, bs, r =>
    match u with
    | some g => MethodReads e o (g c.erase.zero) bs r
    | none => ReadAs e c o size bs r
  | .ptr c, o, size, bs, r => ∃ x, r = .ptr (some x) ∧ ReadAs e c o size bs x
  | .slice c, _, size, bs, r => ∃ xs body,
    (match size with
      | none => xs.length ≤ readMax e
      | some s => s = xs.length ∧ xs.length < 2 ^ 31) ∧
    bs = (if size.isSome then [] else lenPrefix e xs.length) ++ body ∧
    -- the decoder refuses a length larger than the number of bytes that follow
    xs.length ≤ body.length ∧
    Elems c (fun x b => ReadAs e c .le none b x) xs body ∧
    r = .seq (if e = .borsh ∧ xs = [] then none else some xs)
  | .array n c, _, _, bs, r => ∃ xs, xs.length = n ∧ (c.erase.uintKind.isSome → n < 2 ^ 31) ∧
    Elems c (fun x b => ReadAs e c .le none b x) xs bs ∧ r = .arr xs
  | .map k c, _, _, bs, r => ∃ (xs : List (Val × Val)) (body : Bytes), xs.length ≤ readMax e ∧ bs = lenPrefix e xs.length ++ body ∧
    xs.Pairwise (fun x y => k.keyEq x.1 y.1 = false) ∧
    Concat (fun x b => ∃ b1 b2, b = b1 ++ b2 ∧ ReadPlain e k .le none b1 x.1 ∧ ReadAs e c .le none b2 x.2) xs body ∧
    r = .map (if xs = [] then none else some xs)
  | .struct fs, _, _, bs, r =>
    if e = .borsh ∧ fs.isEnum then
      ∃ n b rs, n < 256 ∧ n + 1 < fs.length ∧ bs = fixed .le 1 n ++ b ∧ ReadNth e fs (n + 1) b rs ∧ r = .struct (.uint n :: rs.tail)
    else ∃ rs, ReadFields e fs [] false bs rs ∧ r = .struct rs
/-- The bytes are read into fresh fields.  `seen` says that a `binary_extension` field came before. -/
def ReadFields (e : Encoding) : CFields → List (Bytes × Int) → Bool → Bytes → List Val → Prop
  | .nil, _, _, bs, rs => bs = [] ∧ rs = []
  | .cons _ _ _, _, _, _, [] => False
  | .cons m c fs, sm, seen, bs, r :: rs =>
    if m.tag.skip then r = c.erase.zero ∧ ReadFields e fs sm seen bs rs
    else
      (seen = true → m.tag.binExt = true) ∧
      if m.exported then
        ∃ b rest, bs = b ++ rest ∧ (m.tag.binExt = true → b ≠ []) ∧
          match (if e = .borsh then c.direct else none) with
          -- Borsh calls the method of a field at once, without looking at the tag
          | some (g, z, isPtr) =>
            (∃ x, MethodReads e .le (g z) b x ∧ r = if isPtr then .ptr (some x) else x) ∧
            ReadFields e fs sm (seen || m.tag.binExt) rest rs
          | none =>
            (e = .borsh → m.tag.order = .le) ∧
            ReadField e m c (fun b r => ReadAs e c m.tag.order (lookupSize m.name sm) b r) b r ∧
            ∃ sm', announce m c.erase r sm = some sm' ∧ ReadFields e fs sm' (seen || m.tag.binExt) rest rs
      else r = c.erase.zero ∧ ReadFields e fs sm (seen || m.tag.binExt) bs rs
/-- The bytes are read into field `i` of a fresh Borsh enum. -/
def ReadNth (e : Encoding) : CFields → Nat → Bytes → List Val → Prop
  | .cons _ c fs, 0, bs, rs => ∃ x, ReadAs e c .le none bs x ∧ rs = x :: fs.erase.zeros
  | .cons _ c fs, i + 1, bs, rs => ∃ ws, ReadNth e fs i bs ws ∧ rs = c.erase.zero :: ws
  | .nil, _, _, _ => False
end

mutual
/-- A type of the main model in which the library types are types with methods like any other. -/
def exposed : Ty → CTy
  | .lib l => .user (.plain (.lib l)) (CTy.plain (.lib l)).method (some (unmarshalLib l))
  | .ptr t => .ptr (exposed t)
  | .slice t => .slice (exposed t)
  | .array n t => .array n (exposed t)
  | .map k t => .map k (exposed t)
  | .struct fs => .struct (exposedFields fs)
  | t => .plain t
def exposedFields : Fields → CFields
  | .nil => .nil
  | .cons m t fs => .cons m (exposed t) (exposedFields fs)
end

mutual
/-- The type without those methods with pointer receivers that are not directly behind a pointer.  `below`: it is. -/
def unpointed (below : Bool) : CTy → CTy
  | .plain t => .plain t
  | .user c m u => .user (unpointed false c)
    (match m with
      | .pointer f => if below then .pointer f else .none
      | m => m) u
  | .ptr c => .ptr (unpointed true c)
  | .slice c => .slice (unpointed false c)
  | .array n c => .array n (unpointed false c)
  | .map k c => .map k (unpointed false c)
  | .struct fs => .struct (unpointedFields fs)
def unpointedFields : CFields → CFields
  | .nil => .nil
  | .cons m c fs => .cons m (unpointed false c) (unpointedFields fs)
end

end Verif.Spec
