import Verif.Model.Decoder
import Verif.Model.ByteReader
/-!
# The decoder as an `io.Reader` and an `io.ByteReader`

`*Decoder` has the methods `Read` (decoder.go:306-317) and `ReadByte` (decoder.go:408-420), so it can be handed to every function that wants
an `io.Reader` or an `io.ByteReader`.  Here are the functions of Go's packages `io` and `encoding/binary` that one hands it to.
-/
namespace Verif

/-- Errors of a reader: `io.EOF`, or another one. -/
inductive RdErr where
  | eof
  | own (x : Err)
  deriving DecidableEq, Repr

/-- `Read(buf)` with `len(buf) = k`: the `n` bytes put into `buf`, and the error.  Outcomes are `ok` and `panic` only. -/
abbrev IoReader (σ : Type) := Nat → M σ (Bytes × Option RdErr)

/-- `(*Decoder).Read` (decoder.go:306-317): `n` is zero when there is an error. -/
def decoderReader : IoReader Dec := fun k d =>
  match readInto k d with
  | (.ok bs, d') => (.ok (bs, none), d')
  | (.err x, d') => (.ok ([], some (.own x)), d')
  | (.panic, d') => (.panic, d')

/-- `bytes.Reader`, `strings.Reader` (Go std `bytes/reader.go`): what there is, `io.EOF` when there is nothing. -/
def plainReader : IoReader Bytes := fun k s =>
  if s = [] then (.ok ([], some .eof), s) else (.ok (s.take k, none), s.drop k)

section
variable {σ : Type} (r : IoReader σ)

/-- The loop of Go std `io.ReadAtLeast` on a buffer of `size` bytes.  The loop need not end: `none` if it has not after `fuel` rounds. -/
def readLoop (size min : Nat) : Nat → Bytes → Option RdErr → σ → Option (Res (Bytes × Option RdErr) × σ)
  | 0, _, _, _ => none
  | fuel + 1, got, e, s =>
    if got.length < min ∧ e = none then
      match r (size - got.length) s with
      | (.ok (bs, e'), s') => readLoop size min fuel (got ++ bs) e' s'
      | (.err x, s') => some (.err x, s')
      | (.panic, s') => some (.panic, s')
    else some (.ok (got, if min ≤ got.length then none
      else if got ≠ [] ∧ e = some .eof then some (.own .eof) else e), s)

/-- Go std `io.ReadFull`: `io.ReadAtLeast` with the length of the buffer. -/
def ioReadFull (k fuel : Nat) (s : σ) : Option (Res (Bytes × Option RdErr) × σ) := readLoop r k k fuel [] none s

/-- Go std `io.ReadAll`, the buffer having room for `cap` bytes; when it is full `append` makes it larger (`grow`). -/
def readAllLoop (grow : Nat → Nat) : Nat → Nat → Bytes → σ → Option (Res (Bytes × Option RdErr) × σ)
  | 0, _, _, _ => none
  | fuel + 1, cap, got, s =>
    match r (cap - got.length) s with
    | (.ok (bs, none), s') =>
      readAllLoop grow fuel (if (got ++ bs).length = cap then grow cap else cap) (got ++ bs) s'
    | (.ok (bs, some e), s') => some (.ok (got ++ bs, if e = .eof then none else some e), s')
    | (.err x, s') => some (.err x, s')
    | (.panic, s') => some (.panic, s')

/-- Go std `io.ReadAll`; the first buffer has room for 512 bytes there. -/
def ioReadAll (grow : Nat → Nat) (cap fuel : Nat) (s : σ) : Option (Res (Bytes × Option RdErr) × σ) :=
  readAllLoop r grow fuel cap [] s

/-- The loop of Go std `io.Copy` with a buffer of `size` bytes, for a destination that takes everything (and has no `ReadFrom`): what has been
written, and the error. -/
def copyLoop (size : Nat) : Nat → Bytes → σ → Option (Res (Bytes × Option RdErr) × σ)
  | 0, _, _ => none
  | fuel + 1, out, s =>
    match r size s with
    | (.ok (bs, none), s') => copyLoop size fuel (out ++ bs) s'
    | (.ok (bs, some e), s') => some (.ok (out ++ bs, if e = .eof then none else some e), s')
    | (.err x, s') => some (.err x, s')
    | (.panic, s') => some (.panic, s')

/-- Go std `io.Copy`; the buffer has 32768 bytes there. -/
def ioCopy (size fuel : Nat) (s : σ) : Option (Res (Bytes × Option RdErr) × σ) := copyLoop r size fuel [] s

/-- Go std `io.LimitReader`: the state is that of the reader and the number of bytes that may still be read. -/
def limitReader : IoReader (σ × Nat) := fun k s =>
  if s.2 = 0 then (.ok ([], some .eof), s)
  else
    match r (min k s.2) s.1 with
    | (.ok (bs, e), s') => (.ok (bs, e), (s', s.2 - bs.length))
    | (.err x, s') => (.err x, (s', s.2))
    | (.panic, s') => (.panic, (s', s.2))

/-- Go std `io.CopyN`: `io.Copy` from an `io.LimitReader`, for which the buffer is not larger than the limit; ending early is `io.EOF`. -/
def ioCopyN (size n fuel : Nat) (s : σ) : Option (Res (Bytes × Option RdErr) × σ) :=
  match copyLoop (limitReader r) (if size > n then max n 1 else size) fuel [] (s, n) with
  | some (.ok (out, e), s') =>
    some (.ok (out, if out.length = n then none else if e = none then some .eof else e), s'.1)
  | some (.err x, s') => some (.err x, s'.1)
  | some (.panic, s') => some (.panic, s'.1)
  | none => none
end

/-- `(*Decoder).ReadByte` (decoder.go:408-420) as an `io.ByteReader`, for a cursor that is not before the start of the buffer. -/
def decoderBytes : ByteReader Dec Err := fun d =>
  match readByte d with
  | (.ok b, d') => (.ok b, d')
  | (.err x, d') => (.error x, d')
  | (.panic, d') => (.error .notEnough, d')

/-- The loop of Go std `binary.ReadUvarint` (at most ten rounds, `i` of them done); `late` turns `io.EOF` behind the first byte into
`io.ErrUnexpectedEOF`. -/
def stdUvarintLoop {σ ε : Type} (r : ByteReader σ ε) (late : ε → ε) (x i : Nat) : Nat → σ → RRes ε Nat × σ
  | 0, s => (.own .varint, s)
  | fuel + 1, s =>
    match r s with
    | (.error e, s') => (.reader (if i = 0 then e else late e), s')
    | (.ok b, s') =>
      if b < 0x80 then
        if i = 9 ∧ b > 1 then (.own .varint, s') else (.ok (x ||| (b.toNat <<< (7 * i))), s')
      else stdUvarintLoop r late (x ||| ((b &&& 0x7f).toNat <<< (7 * i))) (i + 1) fuel s'

/-- Go std `binary.ReadUvarint`. -/
def stdReadUvarint {σ ε : Type} (r : ByteReader σ ε) (late : ε → ε) (s : σ) : RRes ε Nat × σ := stdUvarintLoop r late 0 0 10 s

end Verif
