import Verif.Model.DecodeReflect
/-!
# How much work decoding does

The functions follow `decCore`, `decFields` and `decNth` of `Model/DecodeReflect` and count: one for every call of `decodeBin`,
`decodeBorsh`, `decodeCompactU16` (or, in Borsh struct fields, `UnmarshalWithDecoder`), one for every field of the field loop, one
for every element of the bulk loops over unsigned integers, and one for every byte that a scalar, string or library type takes.
What happens before an error or panic counts.
-/
namespace Verif

/-- `f`, if `m` succeeds. -/
def after {α : Type} (m : DM α) (d : Dec) (f : α → Dec → Nat) : Nat :=
  match m d with
  | (.ok a, d') => f a d'
  | _ => 0

/-- The bytes `m` takes. -/
def taken {α : Type} (m : DM α) (d : Dec) : Nat := ((m d).2.pos - d.pos).toNat

/-- `for i := 0; i < n; i++ { m }` (`repeatM`), `w` being the work of one round. -/
def workTimes {α : Type} (m : DM α) (w : Dec → Nat) : Nat → Dec → Nat
  | 0, _ => 0
  | n + 1, d => w d + after m d fun _ d' => workTimes m w n d'

/-- `for _, x := range xs { f(x) }` (`traverseM`). -/
def workEach {α β : Type} (f : β → DM α) (w : β → Dec → Nat) : List β → Dec → Nat
  | [], _ => 0
  | x :: xs, d => w x d + after (f x) d fun _ d' => workEach f w xs d'

/-- The length of a slice: the `sizeof` field or the prefix (decoder_bin.go:177-186, decoder_borsh.go:212-221,
decoder_compact-u16.go:176-185). -/
def sliceLen (e : Encoding) (o : Opt) : DM Int :=
  match o.sizeOf with
  | some s => pure s
  | none => do
    let n ← readSeqLen e
    pure (n : Int)

/-- `reflect_readArrayOfUint_` (decoder.go:929-960): nothing happens if the elements do not fit. -/
def workUints (l : Int) (w : Width) (d : Dec) : Nat := if l * w.bytes > d.remaining then 0 else l.toNat

/-- `decField`: `w` is the work of the rest of the function. -/
def workField (e : Encoding) (t : Ty) (o : Opt) (w : Dec → Nat) (d : Dec) : Nat :=
  after (setCurD o.order) d fun _ d =>
    if o.optional then
      if t.asLib.isSome then 0
      else after (readFlag e) d fun present d =>
        if present then
          if e = .borsh ∧ o.coptional then
            if t.baseLib then 0
            else after readCOption d fun present d => if present then w d else 0
          else w d
        else 0
    else if e = .borsh ∧ o.coptional then
      if t.asLib.isSome then 0
      else after readCOption d fun present d => if present then w d else 0
    else w d

mutual
/-- `decCore` (decoder_bin.go:80-249, decoder_borsh.go:98-288, decoder_compact-u16.go:79-248). -/
def workCore (e : Encoding) : Ty → Opt → Val → Dec → Nat
  | .lib l, _, old, d => 1 + taken (unmarshalLib l old) d
  | .ptr t, o, old, d => 1 + workCore e t o (old.deref t) d
  | .slice t, o, _, d => 1 + after (sliceLen e o) d fun l d =>
      if e = .borsh ∧ l = 0 then 0
      else if l > d.remaining then 0
      else
        match t.uintKind with
        | some w => workUints l w d
        | none => workTimes (do setCurD .le; decCore e t {} t.zero)
            (fun d => workCore e t {} t.zero { d with cur := some .le }) l.toNat d
  | .array n t, _, old, d => 1 +
      match t.uintKind with
      | some w => workUints n w d
      | none => workEach (fun x => do setCurD .le; decCore e t {} x)
          (fun x d => workCore e t {} x { d with cur := some .le }) (old.elems n t) d
  | .map k t, _, _, d => 1 + after (readSeqLen e) d fun l d =>
      workTimes (do
          setCurD .le
          let x ← decCore e k {} k.zero
          setCurD .le
          let y ← decCore e t {} t.zero
          pure (x, y))
        (fun d => workCore e k {} k.zero { d with cur := some .le } +
          after (do setCurD .le; decCore e k {} k.zero) d fun _ d => workCore e t {} t.zero { d with cur := some .le }) l d
  | .struct fs, _, old, d => 1 +
      if e = .borsh ∧ fs.isEnum then
        after readUint8 d fun tag d => if tag + 1 ≥ fs.length then 0 else workNth e fs (tag + 1) (old.fields fs) d
      else workFields e fs [] false (old.fields fs) d
  | .iface, _, _, _ => 1
  | .bool, o, _, d => 1 + taken (decPlain e .bool o) d
  | .uint w _, o, _, d => 1 + taken (decPlain e (.uint w) o) d
  | .int w _, o, _, d => 1 + taken (decPlain e (.int w) o) d
  | .borshEnum, o, _, d => 1 + taken (decPlain e (.uint .w8) o) d
  | .f32, o, _, d => 1 + taken (decPlain e .f32 o) d
  | .f64, o, _, d => 1 + taken (decPlain e .f64 o) d
  | .str, o, _, d => 1 + taken (decPlain e .string o) d
  | .plainInt, _, _, _ => 1
  | .plainUint, _, _, _ => 1
  | .other, _, _, _ => 1
/-- `decFields` (decoder_bin.go:252-352, decoder_borsh.go:333-452, decoder_compact-u16.go:251-351). -/
def workFields (e : Encoding) : Fields → List (Bytes × Int) → Bool → List Val → Dec → Nat
  | .nil, _, _, _, _ => 0
  | .cons _ _ _, _, _, [], _ => 0
  | .cons m t fs, sm, seen, v :: vs, d => 1 +
    if m.tag.skip then workFields e fs sm seen vs d
    else if !m.tag.binExt && seen then 0
    else after (extensionEnds m) d fun atEnd d =>
      if atEnd || !m.exported then workFields e fs sm (seen || m.tag.binExt) vs d
      else
        match (if e = .borsh then t.directLib else none) with
        | some (l, _) => 1 + taken (unmarshalLib l l.zero) d +
          after (unmarshalLib l l.zero) d fun _ d => workFields e fs sm (seen || m.tag.binExt) vs d
        | none => workField e t (fieldOpt m sm) (workCore e t (fieldOpt m sm) v) d +
          after (decField e t (fieldOpt m sm) v (decCore e t (fieldOpt m sm) v)) d fun x d =>
            after (recordSize m t x sm) d fun sm d => workFields e fs sm (seen || m.tag.binExt) vs d
/-- `decNth` (decoder_borsh.go:305-306). -/
def workNth (e : Encoding) : Fields → Nat → List Val → Dec → Nat
  | .cons _ t _, 0, v :: _, d => workCore e t {} v { d with cur := some .le }
  | .cons _ _ fs, i + 1, _ :: vs, d => workNth e fs i vs d
  | _, _, _, _ => 0
end

/-- The work of `Decode(&x)`, `x` a new variable of type `t`, on `b` (decoder.go:127-138). -/
def decodeWork (e : Encoding) (t : Ty) (b : Bytes) : Nat := workCore e t {} t.zero { Dec.new b e with cur := some .le }

end Verif
