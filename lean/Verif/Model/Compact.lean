import Verif.Model.Bits
/-!
# compact-u16.go
-/
namespace Verif

/-- The `for` loop of `EncodeCompactU16Length` (compact-u16.go:30-41).
`elem := uint8(rem_len & 0x7f); rem_len >>= 7; …`.  `fuel` bounds the number of iterations; the loop divides
a value ≤ 65535 by 128 each round, so the fuel 3 passed by the caller is never exhausted (proved). -/
def encodeCompactLoop : Nat → Nat → Bytes
  | 0, _ => []
  | fuel + 1, rem =>
    let elem := UInt8.ofNat rem &&& 0x7f
    let rem' := rem / 128
    if rem' = 0 then [elem] else (elem ||| 0x80) :: encodeCompactLoop fuel rem'

/-- `EncodeCompactU16Length` (compact-u16.go:26-43): error and the new content of `*buf`. -/
def encodeCompactU16Length (buf : Bytes) (ln : Int) : Res Unit × Bytes :=
  if ln < 0 ∨ ln > 65535 then (.err .lenRange, buf)
  else (.ok (), buf ++ encodeCompactLoop 3 ln.toNat)

/-- The loop of `DecodeCompactU16` (compact-u16.go:48-69), `nth` = nth_byte = size, `ln` accumulated.
Result: `(ln, size)` at the exit of the loop. `ln |= (elem & 0x7f) << (size*7)`.
The branch `nth_byte >= 3` (lines 58-59) is unreachable because the loop condition is `nth_byte < 3`. -/
def decodeCompactLoop (ln nth : Nat) : Nat → Bytes → Res (Nat × Nat)
  | 0, _ => .ok (ln, nth)
  | fuel + 1, bytes =>
    match bytes with
    | [] => .err .eof
    | elem :: rest =>
      if elem = 0 ∧ nth ≠ 0 then .err .alias
      else if nth = 2 ∧ elem &&& 0x80 ≠ 0 then .err .continues
      else
        let ln' := ln ||| ((elem &&& 0x7f).toNat <<< (nth * 7))
        if elem &&& 0x80 = 0 then .ok (ln', nth + 1)
        else decodeCompactLoop ln' (nth + 1) fuel rest

/-- `DecodeCompactU16` (compact-u16.go:47-79): `(length, size)`. -/
def decodeCompactU16 (bytes : Bytes) : Res (Nat × Nat) :=
  match decodeCompactLoop 0 0 3 bytes with
  | .ok (ln, size) =>
    if size = 0 ∨ size > 3 then .err .badCompact
    else if ln > 65535 then .err .badCompact
    else .ok (ln, size)
  | .err e => .err e
  | .panic => .panic

/-- `io.ByteReader.ReadByte` over a byte string (`bytes.Reader`): error at the end of the data. -/
def readerReadByte : M Bytes UInt8 := fun s =>
  match s with
  | [] => (.err .eof, [])
  | b :: rest => (.ok b, rest)

/-- The loop of `DecodeCompactU16LengthFromByteReader` (compact-u16.go:83-104); state = unread bytes. -/
def decodeCompactReaderLoop (ln nth : Nat) : Nat → M Bytes (Nat × Nat)
  | 0 => pure (ln, nth)
  | fuel + 1 => do
    let elem ← readerReadByte
    if elem = 0 ∧ nth ≠ 0 then M.err .alias
    else if nth = 2 ∧ elem &&& 0x80 ≠ 0 then M.err .continues
    else
      let ln' := ln ||| ((elem &&& 0x7f).toNat <<< (nth * 7))
      if elem &&& 0x80 = 0 then pure (ln', nth + 1)
      else decodeCompactReaderLoop ln' (nth + 1) fuel

/-- `DecodeCompactU16LengthFromByteReader` (compact-u16.go:82-114). -/
def decodeCompactFromReader : M Bytes Nat := do
  let (ln, size) ← decodeCompactReaderLoop 0 0 3
  if size = 0 ∨ size > 3 then M.err .badCompact
  else if ln > 65535 then M.err .badCompact
  else pure ln

end Verif
