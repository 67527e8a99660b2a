import Verif.Model.DecodeReflect
/-!
# Decoding into variables that are shared

`Model/DecodeReflect` takes the content of a variable as a tree and returns a tree: a pointer is what it points to.  Here
pointers, slices and maps are references into a heap, as in Go, so that two of them can lead to the same variable.  The
functions follow those of `Model/DecodeReflect` one by one; the memory they assign is what is new.

Simplifications: a pointer leads to a whole variable (no pointers to fields, array elements or slice elements), and no
variable is reached from its own content through pointers (a cyclic destination).  A slice decoded from unsigned bytes gets
an array of its own, although the code lets it share the input (`Model/Memory` and C56 are about that).  When a call
fails, the variables that were being filled keep the old content here; `Model/DecodeInto` says what they hold in the
code.
-/
namespace Verif

/-- The content of a variable: pointers, slices and maps are addresses (`none` = nil), arrays and structs are stored in
place. -/
inductive HVal where
  /-- everything without parts: scalars, strings, library values, interfaces -/
  | leaf (v : Val)
  | ptr (a : Option Nat)
  | seq (a : Option Nat)
  | arr (xs : List HVal)
  | map (a : Option Nat)
  | struct (xs : List HVal)

/-- What is stored at an address. -/
inductive Cell where
  /-- a variable, what a pointer leads to -/
  | one (x : HVal)
  /-- the array behind a slice -/
  | many (xs : List HVal)
  /-- the entries of a map -/
  | table (m : List (HVal × HVal))

/-- Memory; the addresses from `next` on are unused. -/
structure Heap where
  cell : Nat → Cell
  next : Nat

/-- Assign to what is at address `a`. -/
def Heap.set (h : Heap) (a : Nat) (c : Cell) : Heap := { h with cell := fun b => if b = a then c else h.cell b }

/-- `reflect.New`, `reflect.MakeSlice`, `reflect.MakeMap`. -/
def Heap.alloc (h : Heap) (c : Cell) : Heap :=
  { cell := fun b => if b = h.next then c else h.cell b, next := h.next + 1 }

/-- The content of the variable at address `a`. -/
def Heap.var (h : Heap) (a : Nat) : HVal :=
  match h.cell a with
  | .one x => x
  | _ => .leaf .nil

/-- A decoder and the memory. -/
structure HDec where
  dec : Dec
  heap : Heap

/-- A call that reads with the decoder and changes memory. -/
abbrev HM := M HDec

/-- A call that touches no variable of the caller. -/
def onDec {α : Type} (m : DM α) : HM α := fun s => ((m s.dec).1, { s with dec := (m s.dec).2 })

/-- Allocate a new cell. -/
def newCell (c : Cell) : HM Nat := fun s => (.ok s.heap.next, { s with heap := s.heap.alloc c })

/-- Load a variable. -/
def loadVar (a : Nat) : HM HVal := fun s => (.ok (s.heap.var a), s)

/-- Store into a variable. -/
def storeVar (a : Nat) (x : HVal) : HM Unit := fun s => (.ok (), { s with heap := s.heap.set a (.one x) })

/-- The zero value of a library type. -/
def Lib.zeroH : Lib → HVal
  | .emptyVariant => .struct []
  | l => .leaf l.zero

mutual
/-- `reflect.Zero(t)`. -/
def Ty.zeroH : Ty → HVal
  | .lib l => l.zeroH
  | .ptr _ => .ptr none
  | .slice _ => .seq none
  | .array n t => .arr (List.replicate n t.zeroH)
  | .map _ _ => .map none
  | .struct fs => .struct fs.zerosH
  | t => .leaf t.zero
def Fields.zerosH : Fields → List HVal
  | .nil => []
  | .cons _ t fs => t.zeroH :: fs.zerosH
end

mutual
/-- What the comparison of map keys and `sizeof` look at: they do not follow pointers (Go `==` on pointers compares
addresses; the pointers in decoded keys are new and differ). -/
def HVal.plain : HVal → Val
  | .leaf v => v
  | .ptr none => .ptr none
  | .ptr (some _) => .ptr (some .nil)
  | .seq none => .seq none
  | .seq (some _) => .seq (some [])
  | .arr xs => .arr (HVal.plains xs)
  | .map none => .map none
  | .map (some _) => .map (some [])
  | .struct xs => .struct (HVal.plains xs)
def HVal.plains : List HVal → List Val
  | [] => []
  | x :: xs => x.plain :: HVal.plains xs
end

/-- `rv.SetMapIndex(key, val)`, as `setEntry`. -/
def setEntryH (k : Ty) (x : HVal × HVal) : List (HVal × HVal) → List (HVal × HVal)
  | [] => [x]
  | y :: ys => if k.keyEq y.1.plain x.1.plain then x :: ys else y :: setEntryH k x ys

/-- `UnmarshalWithDecoder` of a library type assigns to its receiver (types.go, u128.go); that of `EmptyVariant` does nothing. -/
def unmarshalLibH (l : Lib) (x : HVal) : HM HVal :=
  match l with
  | .emptyVariant => pure x
  | l => do
    let v ← onDec (unmarshalLib l x.plain)
    pure (.leaf v)

/-- `if v.IsNil() { v.Set(reflect.New(v.Type().Elem())) }` (decoder.go:743-745): the variable a pointer leads to, a new one
if it was nil. -/
def target (t : Ty) : HVal → HM Nat
  | .ptr (some a) => pure a
  | _ => newCell (.one t.zeroH)

/-- `indirect(rv, true)` and `rv.Set(reflect.Zero(rv.Type()))`, as `absentVal`: the last pointer is set to nil where it is
stored; what it pointed to is left alone. -/
def absentValH : Ty → HVal → HM HVal
  | .ptr (.ptr t), .ptr (some a) => do
    let x ← loadVar a
    let y ← absentValH (.ptr t) x
    storeVar a y
    pure (.ptr (some a))
  | t, _ => pure t.zeroH

/-- `indirect(rv, false)` and `rv.Set(reflect.Zero(rv.Type()))`, as `absentBase`: the variable behind all pointers is set to
zero. -/
def absentBaseH : Ty → HVal → HM HVal
  | .ptr t, x => do
    let a ← target t x
    let x ← loadVar a
    let y ← absentBaseH t x
    storeVar a y
    pure (.ptr (some a))
  | t, _ => pure t.zeroH

/-- As `decField` (decoder_bin.go:44-86, decoder_borsh.go:44-106). -/
def decFieldH (e : Encoding) (t : Ty) (o : Opt) (old : HVal) (core : HM HVal) : HM HVal := do
  onDec (setCurD o.order)
  if o.optional then
    if t.asLib.isSome then M.panic
    else do
      let present ← onDec (readFlag e)
      if present then
        if e = .borsh ∧ o.coptional then
          if t.baseLib then M.panic
          else do
            let present ← onDec readCOption
            if present then core else absentBaseH t old
        else core
      else absentValH t old
  else if e = .borsh ∧ o.coptional then
    if t.asLib.isSome then M.panic
    else do
      let present ← onDec readCOption
      if present then core else absentValH t old
  else core

/-- `v.Set(reflect.ValueOf(val))` for a pointer, `v.Set(reflect.ValueOf(val).Elem())` for a value (decoder_borsh.go:432,423). -/
def boxed (isPtr : Bool) (y : HVal) : HM HVal :=
  if isPtr then do
    let a ← newCell (.one y)
    pure (.ptr (some a))
  else pure y

/-- As `decStruct` (decoder_borsh.go:291-331). -/
def decStructH (e : Encoding) (fs : Fields) (fields : HM (List HVal)) (nth : Nat → HM (List HVal)) : HM HVal :=
  if e = .borsh ∧ fs.isEnum then do
    let tag ← onDec readUint8
    if tag + 1 ≥ fs.length then M.err .enumTooLarge
    else do
      let vs ← nth (tag + 1)
      pure (.struct (.leaf (.uint tag) :: vs.tail))
  else do
    let vs ← fields
    pure (.struct vs)

/-- The old elements of an array. -/
def HVal.elems (n : Nat) (t : Ty) : HVal → List HVal
  | .arr xs => xs
  | _ => List.replicate n t.zeroH

/-- The old fields of a struct. -/
def HVal.fields (fs : Fields) : HVal → List HVal
  | .struct vs => vs
  | _ => fs.zerosH

mutual
/-- As `decCore` (decoder_bin.go:80-249, decoder_compact-u16.go:79-248, decoder_borsh.go:98-288): pointers are written
through (`indirect`, decoder.go:694-760), slices get a new array (`reflect.MakeSlice`/`reflect.Append` or the buffer of
`reflect_readArrayOfUint_`, decoder_bin.go:191-212, decoder.go:762-926) and maps a new table (decoder_bin.go:229). -/
def decH (e : Encoding) : Ty → Opt → HVal → HM HVal
  | .lib l, _, x => unmarshalLibH l x
  | .ptr t, o, x => do
    let a ← target t x
    let old ← loadVar a
    let y ← decH e t o old
    storeVar a y
    pure (.ptr (some a))
  | .slice t, o, x => do
    let l : Int ← onDec (
      match o.sizeOf with
      | some s => pure s
      | none => do
        let n ← readSeqLen e
        pure (n : Int))
    if e = .borsh ∧ l = 0 then pure x
    else do
      let d ← onDec M.get
      if l > d.remaining then M.err .eof
      else
        match t.uintKind with
        | some w => do
          let xs ← onDec (readUints l w)
          let a ← newCell (.many (xs.map .leaf))
          pure (.seq (some a))
        | none => do
          let xs ← repeatM (do onDec (setCurD .le); decH e t {} t.zeroH) l.toNat
          let a ← newCell (.many xs)
          pure (.seq (some a))
  | .array n t, _, x => do
    match t.uintKind with
    | some w => do
      let xs ← onDec (readUints n w)
      pure (.arr (xs.map .leaf))
    | none => do
      let xs ← traverseM (fun x => do onDec (setCurD .le); decH e t {} x) (x.elems n t)
      pure (.arr xs)
  | .map k t, _, x => do
    let l ← onDec (readSeqLen e)
    if l = 0 then pure x
    else do
      let xs ← repeatM (do
        onDec (setCurD .le)
        let x ← decH e k {} k.zeroH
        onDec (setCurD .le)
        let y ← decH e t {} t.zeroH
        pure (x, y)) l
      let a ← newCell (.table (xs.foldl (fun m x => setEntryH k x m) []))
      pure (.map (some a))
  | .struct fs, _, x =>
    decStructH e fs (decFieldsH e fs [] false (x.fields fs)) (fun i => decNthH e fs i (x.fields fs))
  | .iface, _, x => pure x
  | .bool, o, _ => onDec (decPlain e .bool o) >>= fun v => pure (.leaf v)
  | .uint w _, o, _ => onDec (decPlain e (.uint w) o) >>= fun v => pure (.leaf v)
  | .int w _, o, _ => onDec (decPlain e (.int w) o) >>= fun v => pure (.leaf v)
  | .borshEnum, o, _ => onDec (decPlain e (.uint .w8) o) >>= fun v => pure (.leaf v)
  | .f32, o, _ => onDec (decPlain e .f32 o) >>= fun v => pure (.leaf v)
  | .f64, o, _ => onDec (decPlain e .f64 o) >>= fun v => pure (.leaf v)
  | .str, o, _ => onDec (decPlain e .string o) >>= fun v => pure (.leaf v)
  | .plainInt, _, _ => M.err .unsupported
  | .plainUint, _, _ => M.err .unsupported
  | .other, _, _ => M.err .unsupported
/-- As `decFields` (decoder_bin.go:252-352, decoder_compact-u16.go:251-351, decoder_borsh.go:333-452).  Borsh decodes library
types into a new variable, and a pointer to one is replaced rather than followed (decoder_borsh.go:411-434). -/
def decFieldsH (e : Encoding) : Fields → List (Bytes × Int) → Bool → List HVal → HM (List HVal)
  | .nil, _, _, _ => pure []
  | .cons _ _ _, _, _, [] => M.panic
  | .cons m t fs, sm, seen, x :: xs =>
    if m.tag.skip then do
      let rest ← decFieldsH e fs sm seen xs
      pure (x :: rest)
    else if !m.tag.binExt && seen then M.panic
    else do
      let atEnd ← onDec (extensionEnds m)
      if atEnd || !m.exported then do
        let rest ← decFieldsH e fs sm (seen || m.tag.binExt) xs
        pure (x :: rest)
      else
        match (if e = .borsh then t.directLib else none) with
        | some (l, isPtr) => do
          let y ← unmarshalLibH l l.zeroH
          let y ← boxed isPtr y
          let rest ← decFieldsH e fs sm (seen || m.tag.binExt) xs
          pure (y :: rest)
        | none => do
          let y ← decFieldH e t (fieldOpt m sm) x (decH e t (fieldOpt m sm) x)
          let sm ← recordSize m t y.plain sm
          let rest ← decFieldsH e fs sm (seen || m.tag.binExt) xs
          pure (y :: rest)
/-- `dec.decodeBorsh(rv.Field(i), nil)` (decoder_borsh.go:305-306). -/
def decNthH (e : Encoding) : Fields → Nat → List HVal → HM (List HVal)
  | .cons _ t _, 0, x :: xs => do
    onDec (setCurD .le)
    let y ← decH e t {} x
    pure (y :: xs)
  | .cons _ _ fs, i + 1, x :: xs => do
    let rest ← decNthH e fs i xs
    pure (x :: rest)
  | _, _, _ => M.panic
end

/-- `Decode(&x)` for the variable `x` of type `t` at address `a` (decoder.go:127-138, decoder_bin.go:29-42). -/
def decodeAt (t : Ty) (a : Nat) : HM Unit := do
  let d ← onDec M.get
  if d.enc = .other then M.panic
  else do
    onDec (setCurD .le)
    let old ← loadVar a
    let y ← decH d.enc t {} old
    storeVar a y

end Verif
