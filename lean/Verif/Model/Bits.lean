import Verif.Basic
/-!
# Integers and byte orders (`encoding/binary` ByteOrder, Go integer conversions)
-/
namespace Verif

/-- `binary.LittleEndian` / `binary.BigEndian` (tags-options.go:29-32).  Custom implementations of
the `binary.ByteOrder` interface and nil are not modelled. -/
inductive Order where
  | le | be
  deriving DecidableEq, Repr

/-- Go std `littleEndian.PutUintN`: `b[i] = byte(v >> (8*i))`. -/
def putLE : Nat → Nat → Bytes
  | 0, _ => []
  | k + 1, v => UInt8.ofNat v :: putLE k (v / 256)

/-- Go std `littleEndian.UintN`: `b[0] | b[1]<<8 | …`. -/
def getLE : Bytes → Nat
  | [] => 0
  | b :: bs => b.toNat + 256 * getLE bs

/-- Go std `order.PutUintN(buf, v)` on a buffer of exactly `k` bytes; big endian is
`b[k-1-i] = byte(v >> (8*i))`. -/
def putUint (o : Order) (k v : Nat) : Bytes :=
  match o with
  | .le => putLE k v
  | .be => (putLE k v).reverse

/-- Go std `order.UintN(b)`: reads the first `k` bytes, panics (bounds check) on a shorter slice. -/
def getUint (o : Order) (k : Nat) (b : Bytes) : Res Nat :=
  if b.length < k then .panic
  else match o with
    | .le => .ok (getLE (b.take k))
    | .be => .ok (getLE (b.take k).reverse)

/-- Go conversion of a `b`-bit unsigned value to the signed type of the same width (`int16(n)` …). -/
def toSigned (b : Nat) (n : Nat) : Int :=
  if n < 2 ^ (b - 1) then (n : Int) else (n : Int) - (2 : Int) ^ b

/-- Go conversion of an integer to the `b`-bit unsigned type (`uint16(i)`, `uint64(i)` …). -/
def toUnsigned (b : Nat) (z : Int) : Nat := (z % (2 : Int) ^ b).toNat

/-- Widths of the sized integer kinds. -/
inductive Width where
  | w8 | w16 | w32 | w64
  deriving DecidableEq, Repr

/-- Size in bytes (`TypeSize`, decoder.go:34-70). -/
def Width.bytes : Width → Nat
  | .w8 => 1 | .w16 => 2 | .w32 => 4 | .w64 => 8

def Width.bits (w : Width) : Nat := 8 * w.bytes

/-- `math.IsNaN(float64(f))` for a float32 with bit pattern `n`: exponent all ones, mantissa non-zero. -/
def isNaN32 (n : Nat) : Bool := (n / 2 ^ 23) % 2 ^ 8 == 255 && n % 2 ^ 23 != 0

/-- `math.IsNaN(f)` for a float64 with bit pattern `n`. -/
def isNaN64 (n : Nat) : Bool := (n / 2 ^ 52) % 2 ^ 11 == 2047 && n % 2 ^ 52 != 0

end Verif
