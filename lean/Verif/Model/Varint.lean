import Verif.Model.Bits
/-!
# `encoding/binary` varints as used by encoder.go / decoder.go / variant.go
-/
namespace Verif

/-- Go std `binary.PutUvarint`: `for x >= 0x80 { buf[i] = byte(x)|0x80; x >>= 7; i++ }; buf[i] = byte(x)`.
A `uint64` needs at most 10 groups; `fuel` is that bound. -/
def uvarintBytes : Nat → Nat → Bytes
  | 0, _ => []
  | fuel + 1, x =>
    if x < 128 then [UInt8.ofNat x] else (UInt8.ofNat x ||| 0x80) :: uvarintBytes fuel (x / 128)

/-- `binary.PutUvarint(buf, x)` on `buf := make([]byte, 8)` (encoder.go:155-156, variant.go:94-95):
index out of range panic if more than 8 bytes are needed. `x` is a `uint64`. -/
def putUvarint8 (x : Nat) : Res Bytes :=
  let bs := uvarintBytes 10 x
  if bs.length ≤ 8 then .ok bs else .panic

/-- Go std `binary.PutVarint`: zig-zag, `ux := uint64(x) << 1; if x < 0 { ux = ^ux }`. -/
def zigzag (x : Int) : Nat :=
  if x < 0 then 2 ^ 64 - 1 - (2 * toUnsigned 64 x) % 2 ^ 64 else (2 * toUnsigned 64 x) % 2 ^ 64

/-- `binary.PutVarint(buf, x)` on an 8-byte buffer (encoder.go:165-166). -/
def putVarint8 (x : Int) : Res Bytes := putUvarint8 (zigzag x)

/-- Loop of Go std `binary.Uvarint(buf)`: returns `(value, n)`; `n = 0`: buffer too small, `n < 0`: overflow.
`i` is the index of the next byte, `x` the value so far, `7*i` the shift. -/
def uvarintLoop (x i : Nat) : Bytes → Nat × Int
  | [] => (0, 0)
  | b :: rest =>
    if i = 10 then (0, -((i : Int) + 1))
    else if b < 0x80 then
      if i = 9 ∧ b > 1 then (0, -((i : Int) + 1))
      else (x ||| (b.toNat <<< (7 * i)), (i : Int) + 1)
    else uvarintLoop (x ||| ((b &&& 0x7f).toNat <<< (7 * i))) (i + 1) rest

/-- Go std `binary.Uvarint`. -/
def goUvarint (buf : Bytes) : Nat × Int := uvarintLoop 0 0 buf

/-- Go std `binary.Varint`: `x := int64(ux >> 1); if ux&1 != 0 { x = ^x }`. -/
def unzigzag (ux : Nat) : Int :=
  let x := toSigned 64 (ux / 2)
  if ux % 2 ≠ 0 then -x - 1 else x

/-- Go std `binary.Varint`. -/
def goVarint (buf : Bytes) : Int × Int :=
  let (ux, n) := goUvarint buf
  (unzigzag ux, n)

end Verif
