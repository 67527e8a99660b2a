import Verif.Model.DecodeReflect
/-!
# The destination of a decode that may fail

`Model/DecodeReflect` returns the new content of the destination of a successful decode.  Here the same functions are
written so that they also say what the destination holds when they return an error: the variable has been changed step by
step, and the steps made before the error remain.  `Fill.run` forgets this; that the two agree is proved
(`Proofs/DecodeInto`).  The content after a panic is not modelled.
-/
namespace Verif

/-- A call that fills in a destination: outcome, content of the destination, decoder. -/
def Fill (α : Type) := Dec → Res Unit × α × Dec

namespace Fill
variable {α β : Type}

/-- Return without error. -/
def done (a : α) : Fill α := fun d => (.ok (), a, d)

/-- Return the error, or panic; the destination holds `a`. -/
def stop (r : Res Unit) (a : α) : Fill α := fun d => (r, a, d)

/-- Read something and assign it; the destination holds `kept` if the read fails. -/
def assign (m : DM α) (kept : α) : Fill α := fun d =>
  match m d with
  | (.ok a, d') => (.ok (), a, d')
  | (.err e, d') => (.err e, kept, d')
  | (.panic, d') => (.panic, kept, d')

/-- Read something needed to continue; the destination holds `kept` if the read fails. -/
def read (m : DM α) (kept : β) (f : α → Fill β) : Fill β := fun d =>
  match m d with
  | (.ok a, d') => f a d'
  | (.err e, d') => (.err e, kept, d')
  | (.panic, d') => (.panic, kept, d')

/-- Fill a part, then the rest; `whole a` is the destination when the part holds `a` and the rest was not reached. -/
def part (f : Fill α) (whole : α → β) (g : α → Fill β) : Fill β := fun d =>
  match f d with
  | (.ok (), a, d') => g a d'
  | (r, a, d') => (r, whole a, d')

/-- Fill the only part of something larger. -/
def wrap (f : Fill α) (whole : α → β) : Fill β := f.part whole fun a => done (whole a)

/-- Forget the destination of a failed call. -/
def run (f : Fill α) : DM α := fun d =>
  match f d with
  | (.ok (), a, d') => (.ok a, d')
  | (.err e, _, d') => (.err e, d')
  | (.panic, _, d') => (.panic, d')

/-- decoder_bin.go:202-212 (slices) and 229-241 (maps): elements are decoded into new variables and added when complete. -/
def collect (f : Fill α) : Nat → Fill (List α)
  | 0 => done []
  | n + 1 => f.part (fun _ => []) fun a => (collect f n).wrap (a :: ·)

/-- decoder_bin.go:169-173: array elements are decoded in place. -/
def inPlace (f : α → Fill α) : List α → Fill (List α)
  | [] => done []
  | x :: xs => (f x).part (· :: xs) fun y => (inPlace f xs).wrap (y :: ·)

end Fill

/-- `indirect(rv, false)` (decoder.go:694-760): all pointers are allocated. -/
def allocated : Ty → Val → Val
  | .ptr t, v => .ptr (some (allocated t (v.deref t)))
  | _, v => v

/-- The flags of a struct field, see `decField`.  An error while reading a flag leaves the destination as it is, except that
the pointers are allocated between the two flags (decoder_borsh.go:61-80). -/
def fillField (e : Encoding) (t : Ty) (o : Opt) (old : Val) (core : Fill Val) : Fill Val :=
  .read (setCurD o.order) old fun _ =>
  if o.optional then
    if t.asLib.isSome then .stop .panic old
    else
      .read (readFlag e) old fun present =>
      if present then
        if e = .borsh ∧ o.coptional then
          if t.baseLib then .stop .panic old
          else
            .read readCOption (allocated t old) fun present =>
            if present then core else .done (absentBase t)
        else core
      else .done (absentVal t old)
  else if e = .borsh ∧ o.coptional then
    if t.asLib.isSome then .stop .panic old
    else
      .read readCOption old fun present =>
      if present then core else .done (absentVal t old)
  else core

/-- `decodeStructBorsh` up to the field loop and `deserializeComplexEnum` (decoder_borsh.go:291-331): the tag is stored
before it is checked. -/
def fillStruct (e : Encoding) (fs : Fields) (old : Val) (fields : Fill (List Val)) (nth : Nat → Fill (List Val)) :
    Fill Val :=
  if e = .borsh ∧ fs.isEnum then
    .read readUint8 old fun tag =>
    if tag + 1 ≥ fs.length then .stop (.err .enumTooLarge) (.struct (.uint tag :: (old.fields fs).tail))
    else (nth (tag + 1)).wrap fun vs => .struct (.uint tag :: vs.tail)
  else fields.wrap .struct

/-- A scalar: `n, err = dec.Read…(); rv.Set…(n); return` (decoder_bin.go:96-147, decoder_borsh.go:130-178) assigns the zero
returned along with the error. -/
def fillPlain (e : Encoding) (k : Kind) (o : Opt) (zero : Val) : Fill Val :=
  .assign (decPlain e k o) zero

mutual
/-- `decCore` with the destination after an error.  Library types assign only after a successful read (types.go,
u128.go), strings too (decoder_bin.go:89-95), and so do arrays and slices of unsigned integers (decoder.go:762-926). -/
def fillCore (e : Encoding) : Ty → Opt → Val → Fill Val
  | .lib l, _, old => .assign (unmarshalLib l old) old
  | .ptr t, o, old => (fillCore e t o (old.deref t)).wrap fun x => .ptr (some x)
  | .slice t, o, old =>
    .read (match o.sizeOf with
      | some s => pure s
      | none => do
        let n ← readSeqLen e
        pure (n : Int)) old fun (l : Int) =>
    if e = .borsh ∧ l = 0 then .done old
    else
      .read M.get old fun d =>
      if l > d.remaining then .stop (.err .eof) old
      else
        match t.uintKind with
        | some w => .assign (do let xs ← readUints l w; pure (.seq (some xs))) old
        | none =>
          (Fill.collect (.read (setCurD .le) t.zero fun _ => fillCore e t {} t.zero) l.toNat).wrap fun xs => .seq (some xs)
  | .array n t, _, old =>
    match t.uintKind with
    | some w => .assign (do let xs ← readUints n w; pure (.arr xs)) old
    | none =>
      (Fill.inPlace (fun x => .read (setCurD .le) x fun _ => fillCore e t {} x) (old.elems n t)).wrap .arr
  | .map k t, _, old =>
    .read (readSeqLen e) old fun l =>
    if l = 0 then .done old
    else
      (Fill.collect
        (.read (setCurD .le) (k.zero, t.zero) fun _ =>
          (fillCore e k {} k.zero).part (fun x => (x, t.zero)) fun x =>
          .read (setCurD .le) (x, t.zero) fun _ =>
          (fillCore e t {} t.zero).wrap fun y => (x, y)) l).wrap
        fun xs => .map (some (xs.foldl (fun m x => setEntry k x m) []))
  | .struct fs, _, old =>
    fillStruct e fs old (fillFields e fs [] false (old.fields fs)) (fun i => fillNth e fs i (old.fields fs))
  | .iface, _, old => .done old
  | .bool, o, _ => fillPlain e .bool o (.bool false)
  | .uint w _, o, _ => fillPlain e (.uint w) o (.uint 0)
  | .int w _, o, _ => fillPlain e (.int w) o (.int 0)
  | .borshEnum, o, _ => fillPlain e (.uint .w8) o (.uint 0)
  | .f32, o, _ => fillPlain e .f32 o (.float 0)
  | .f64, o, _ => fillPlain e .f64 o (.float 0)
  | .str, o, old => fillPlain e .string o old
  | .plainInt, _, old => .stop (.err .unsupported) old
  | .plainUint, _, old => .stop (.err .unsupported) old
  | .other, _, old => .stop (.err .unsupported) old
/-- `decFields` with the destination after an error: the remaining fields are as before.  In Borsh a field of a library
type is decoded into a new variable first (decoder_borsh.go:411-434). -/
def fillFields (e : Encoding) : Fields → List (Bytes × Int) → Bool → List Val → Fill (List Val)
  | .nil, _, _, _ => .done []
  | .cons _ _ _, _, _, [] => .stop .panic []
  | .cons m t fs, sm, seen, v :: vs =>
    if m.tag.skip then (fillFields e fs sm seen vs).wrap (v :: ·)
    else if !m.tag.binExt && seen then .stop .panic (v :: vs)
    else
      .read (extensionEnds m) (v :: vs) fun atEnd =>
      if atEnd || !m.exported then (fillFields e fs sm (seen || m.tag.binExt) vs).wrap (v :: ·)
      else
        match (if e = .borsh then t.directLib else none) with
        | some (l, isPtr) =>
          .read (unmarshalLib l l.zero) (v :: vs) fun x =>
          (fillFields e fs sm (seen || m.tag.binExt) vs).wrap ((if isPtr then .ptr (some x) else x) :: ·)
        | none =>
          (fillField e t (fieldOpt m sm) v (fillCore e t (fieldOpt m sm) v)).part (· :: vs) fun x =>
          .read (recordSize m t x sm) (x :: vs) fun sm =>
          (fillFields e fs sm (seen || m.tag.binExt) vs).wrap (x :: ·)
/-- `decNth` with the destination after an error. -/
def fillNth (e : Encoding) : Fields → Nat → List Val → Fill (List Val)
  | .cons _ t _, 0, v :: vs =>
    .read (setCurD .le) (v :: vs) fun _ => (fillCore e t {} v).wrap (· :: vs)
  | .cons _ _ fs, i + 1, v :: vs => (fillNth e fs i vs).wrap (v :: ·)
  | _, _, vs => .stop .panic vs
end

/-- `Decode(&x)` for a variable `x` of type `t` holding `old` (decoder.go:127-138): outcome, content of `x` after the call,
decoder. -/
def decodeInto (t : Ty) (old : Val) : Fill Val :=
  .read M.get old fun d =>
  if d.enc = .other then .stop .panic old
  else
    .read (setCurD .le) old fun _ => fillCore d.enc t {} old

end Verif
