import Verif.Model.Heap
import Verif.Model.EncodeReflect
/-!
# Encoding a variable whose parts may be shared

The encoder of `Model/EncodeReflect` on the memory of `Model/Heap`: pointers, slices and maps are addresses, and the encoder
follows them.  It only reads the memory, so the heap is a parameter.  The functions follow those of `Model/EncodeReflect` one
by one; what looks at a value without following its pointers (`IsZero`, `sizeof`, the comparison of keys, the scalars and
the library types) is used unchanged on `HVal.plain`.

Simplifications: those of `Model/EncodeReflect`, and pointers lead to whole variables.
-/
namespace Verif

/-- The elements behind a slice; a nil slice has none. -/
def Heap.elems (h : Heap) : Option Nat → List HVal
  | none => []
  | some a =>
    match h.cell a with
    | .many xs => xs
    | _ => []

/-- The entries of a map; a nil map has none. -/
def Heap.entries (h : Heap) : Option Nat → List (HVal × HVal)
  | none => []
  | some a =>
    match h.cell a with
    | .table m => m
    | _ => []

/-- As `insertSorted` (encoder_borsh.go:210-211). -/
def insertSortedH (k : Kind) (x : HVal × HVal) : List (HVal × HVal) → List (HVal × HVal)
  | [] => [x]
  | y :: ys => if keyLt k y.1.plain x.1.plain then y :: insertSortedH k x ys else x :: y :: ys

/-- As `sortEntries` (encoder_borsh.go:210-211). -/
def sortEntriesH (k : Kind) : List (HVal × HVal) → List (HVal × HVal)
  | [] => []
  | x :: xs => insertSortedH k x (sortEntriesH k xs)

/-- As `mapEntries` and `sortedEntries` (encoder_borsh.go:210-211, 372-395, encoder_bin.go:164). -/
def mapEntriesH (e : Encoding) (k : Ty) (m : List (HVal × HVal)) : EM (List (HVal × HVal)) :=
  if e = .borsh then
    if m.length < 2 then pure m
    else if k.sortable then pure (sortEntriesH k.kind m)
    else M.panic
  else pure m

mutual
/-- As `encCore` (encoder_bin.go:56-193, encoder_compact-u16.go:55-191, encoder_borsh.go:108-246): `rv.Elem()` of a pointer is the
variable it leads to, `rv.Index(i)` of a slice an element of the array behind it, `rv.MapIndex(key)` an entry of the
map. -/
def encH (h : Heap) (e : Encoding) : Ty → Opt → HVal → EM Unit
  | .lib l, _, x => marshalLib l x.plain
  | .ptr t, o, .ptr p =>
    match t.asLib with
    | some l =>
      match p with
      | some a => marshalLib l (h.var a).plain
      | none => if e = .borsh ∨ l = .emptyVariant then pure () else M.panic
    | none =>
      if e = .borsh then do
        setCurE .le
        match p with
        | none => encH h e t {} t.zeroH
        | some a => encH h e t {} (h.var a)
      else do
        setCurE o.order
        match p with
        | none => pure ()
        | some a => encH h e t o (h.var a)
  | .slice t, o, .seq p => do
    let l : Int ←
      match o.sizeOf with
      | some s => pure s
      | none => do
        writeSeqLen e (h.elems p).length
        pure ((h.elems p).length : Int)
    match t.uintKind with
    | some w => writeUints l w (HVal.plains (h.elems p))
    | none => forIndexM (fun x => do setCurE .le; encH h e t {} x) l.toNat (h.elems p)
  | .array n t, _, .arr xs =>
    match t.uintKind with
    | some w => writeUints n w (HVal.plains xs)
    | none => forIndexM (fun x => do setCurE .le; encH h e t {} x) n xs
  | .map k t, _, .map p => do
    let m ← mapEntriesH e k (h.entries p)
    writeSeqLen e m.length
    forEachM (fun x => do
      setCurE .le
      encH h e k {} x.1
      if k.found x.1.plain then do
        setCurE .le
        encH h e t {} x.2
      else M.panic) m
  | .struct fs, _, .struct xs =>
    encStruct e fs (HVal.plains xs) (encFieldsH h e fs [] xs) (fun i => encNthH h e fs i xs)
  | .iface, _, .leaf .nil => pure ()
  | .bool, o, x => encPlain e .bool o x.plain
  | .uint w _, o, x => encPlain e (.uint w) o x.plain
  | .int w _, o, x => encPlain e (.int w) o x.plain
  | .borshEnum, o, x => encPlain e (.uint .w8) o x.plain
  | .f32, o, x => encPlain e .f32 o x.plain
  | .f64, o, x => encPlain e .f64 o x.plain
  | .str, o, x => encPlain e .string o x.plain
  | .plainInt, _, _ => M.err .unsupported
  | .plainUint, _, _ => M.err .unsupported
  | .other, _, _ => M.err .unsupported
  | _, _, _ => M.panic
/-- As `encFields` (encoder_bin.go:196-265, encoder_compact-u16.go:194-263, encoder_borsh.go:307-369). -/
def encFieldsH (h : Heap) (e : Encoding) : Fields → List (Bytes × Int) → List HVal → EM Unit
  | .nil, _, _ => pure ()
  | .cons _ _ _, _, [] => M.panic
  | .cons m t fs, sm, x :: xs =>
    if m.tag.skip then encFieldsH h e fs sm xs
    else do
      let sm ← recordSize m t x.plain sm
      if m.exported then do
        setCurE m.tag.order
        let more ← encFlags e t (fieldOpt m sm) x.plain
        if more then encH h e t (fieldOpt m sm) x else pure ()
        encFieldsH h e fs sm xs
      else encFieldsH h e fs sm xs
/-- As `encNth` (encoder_borsh.go:261-273). -/
def encNthH (h : Heap) (e : Encoding) : Fields → Nat → List HVal → EM Unit
  | .cons _ t _, 0, x :: _ => encPayloadH h e t x
  | .cons _ _ fs, i + 1, _ :: xs => encNthH h e fs i xs
  | _, _, _ => M.panic
/-- As `encPayload` (encoder_borsh.go:262-273). -/
def encPayloadH (h : Heap) (e : Encoding) : Ty → HVal → EM Unit
  | .ptr t, .ptr p =>
    match p with
    | none => pure ()
    | some a => encVariantH h e t (h.var a)
  | .ptr _, _ => M.panic
  | .struct fs, .struct xs =>
    encStruct e fs (HVal.plains xs) (encFieldsH h e fs [] xs) (fun i => encNthH h e fs i xs)
  | .struct _, _ => M.panic
  | .lib l, x => encLibPayload e l x.plain
  | t, x => (encScalar e t.kind .le x.plain).getD (pure ())
/-- As `encVariant` (encoder_borsh.go:265-273). -/
def encVariantH (h : Heap) (e : Encoding) : Ty → HVal → EM Unit
  | .struct fs, .struct xs =>
    encStruct e fs (HVal.plains xs) (encFieldsH h e fs [] xs) (fun i => encNthH h e fs i xs)
  | .struct _, _ => M.panic
  | .lib l, x => encLibPayload e l x.plain
  | t, x => (encScalar e t.kind .le x.plain).getD (pure ())
end

/-- `Encode(x)` for a value that is stored in memory as `x` (encoder.go:68-86). -/
def encodeH (h : Heap) (t : Ty) (x : HVal) : EM Unit := do
  let s ← M.get
  if s.enc = .other then M.panic
  else do
    setCurE .le
    encH h s.enc t {} x

end Verif
