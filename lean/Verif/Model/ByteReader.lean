import Verif.Model.Compact
/-!
# `DecodeCompactU16LengthFromByteReader` on any `io.ByteReader`

`Model/Compact` has this function on a byte string.  Here the reader is arbitrary: a state `σ`, and `ReadByte` as a function that returns a byte
or an error of any kind `ε`, and the next state.
-/
namespace Verif

/-- `io.ByteReader`. -/
abbrev ByteReader (σ ε : Type) := σ → Except ε UInt8 × σ

/-- What a call returns: a result, the reader's own error, or an error made by the function. -/
inductive RRes (ε α : Type) where
  | ok (a : α)
  | reader (x : ε)
  | own (e : Err)
  deriving DecidableEq

/-- The loop of `DecodeCompactU16LengthFromByteReader` (compact-u16.go:85-104). -/
def byteReaderLoop {σ ε : Type} (r : ByteReader σ ε) (ln nth : Nat) : Nat → σ → RRes ε (Nat × Nat) × σ
  | 0, s => (.ok (ln, nth), s)
  | fuel + 1, s =>
    match r s with
    | (.error x, s') => (.reader x, s')
    | (.ok elem, s') =>
      if elem = 0 ∧ nth ≠ 0 then (.own .alias, s')
      else if nth = 2 ∧ elem &&& 0x80 ≠ 0 then (.own .continues, s')
      else if elem &&& 0x80 = 0 then (.ok (ln ||| ((elem &&& 0x7f).toNat <<< (nth * 7)), nth + 1), s')
      else byteReaderLoop r (ln ||| ((elem &&& 0x7f).toNat <<< (nth * 7))) (nth + 1) fuel s'

/-- `DecodeCompactU16LengthFromByteReader` (compact-u16.go:82-114). -/
def decodeCompactFromByteReader {σ ε : Type} (r : ByteReader σ ε) (s : σ) : RRes ε Nat × σ :=
  match byteReaderLoop r 0 0 3 s with
  | (.ok (ln, size), s') =>
    if size = 0 ∨ size > 3 then (.own .badCompact, s')
    else if ln > 65535 then (.own .badCompact, s')
    else (.ok ln, s')
  | (.reader x, s') => (.reader x, s')
  | (.own e, s') => (.own e, s')

/-- The two errors of package `io` for an input that ends. -/
inductive EndErr where
  | eof | unexpectedEOF
  deriving DecidableEq

/-- `bytes.Reader`, `bytes.Buffer`, `bufio.Reader` over a byte string: `io.EOF` at the end (Go std). -/
def bytesReader : ByteReader Bytes EndErr
  | [] => (.error .eof, [])
  | b :: rest => (.ok b, rest)

end Verif
