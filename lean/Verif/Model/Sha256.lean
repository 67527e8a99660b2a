import Verif.Model.Variant
/-!
# SHA-256

`crypto/sha256.Sum256` (used in sighash.go:26) after FIPS 180-4, section 6.2, on byte strings shorter than 2^61 bytes (longer
ones do not exist).  The other modules take the hash function as a parameter.  Words are natural numbers below 2^32.
-/
namespace Verif.Sha256

/-- Addition modulo 2^32 (FIPS 180-4, 3.2). -/
def add (x y : Nat) : Nat := (x + y) % 2 ^ 32

/-- `ROTR` (3.2) -/
def rotr (n x : Nat) : Nat := (x >>> n) ||| ((x <<< (32 - n)) % 2 ^ 32)

/-- Complement of a word. -/
def not (x : Nat) : Nat := 2 ^ 32 - 1 - x

/-- `Ch` (4.2) -/
def ch (x y z : Nat) : Nat := (x &&& y) ^^^ (not x &&& z)
/-- `Maj` (4.3) -/
def maj (x y z : Nat) : Nat := (x &&& y) ^^^ (x &&& z) ^^^ (y &&& z)
/-- `Σ0` (4.4) -/
def bigSigma0 (x : Nat) : Nat := rotr 2 x ^^^ rotr 13 x ^^^ rotr 22 x
/-- `Σ1` (4.5) -/
def bigSigma1 (x : Nat) : Nat := rotr 6 x ^^^ rotr 11 x ^^^ rotr 25 x
/-- `σ0` (4.6) -/
def sigma0 (x : Nat) : Nat := rotr 7 x ^^^ rotr 18 x ^^^ (x >>> 3)
/-- `σ1` (4.7) -/
def sigma1 (x : Nat) : Nat := rotr 17 x ^^^ rotr 19 x ^^^ (x >>> 10)

/-- The constants (4.2.2). -/
def ks : List Nat :=
  [0x428a2f98, 0x71374491, 0xb5c0fbcf, 0xe9b5dba5, 0x3956c25b, 0x59f111f1, 0x923f82a4, 0xab1c5ed5,
   0xd807aa98, 0x12835b01, 0x243185be, 0x550c7dc3, 0x72be5d74, 0x80deb1fe, 0x9bdc06a7, 0xc19bf174,
   0xe49b69c1, 0xefbe4786, 0x0fc19dc6, 0x240ca1cc, 0x2de92c6f, 0x4a7484aa, 0x5cb0a9dc, 0x76f988da,
   0x983e5152, 0xa831c66d, 0xb00327c8, 0xbf597fc7, 0xc6e00bf3, 0xd5a79147, 0x06ca6351, 0x14292967,
   0x27b70a85, 0x2e1b2138, 0x4d2c6dfc, 0x53380d13, 0x650a7354, 0x766a0abb, 0x81c2c92e, 0x92722c85,
   0xa2bfe8a1, 0xa81a664b, 0xc24b8b70, 0xc76c51a3, 0xd192e819, 0xd6990624, 0xf40e3585, 0x106aa070,
   0x19a4c116, 0x1e376c08, 0x2748774c, 0x34b0bcb5, 0x391c0cb3, 0x4ed8aa4a, 0x5b9cca4f, 0x682e6ff3,
   0x748f82ee, 0x78a5636f, 0x84c87814, 0x8cc70208, 0x90befffa, 0xa4506ceb, 0xbef9a3f7, 0xc67178f2]

/-- The initial hash value (5.3.3). -/
def init : List Nat :=
  [0x6a09e667, 0xbb67ae85, 0x3c6ef372, 0xa54ff53a, 0x510e527f, 0x9b05688c, 0x1f83d9ab, 0x5be0cd19]

/-- Padding (5.1.1): a one bit, zeros, the length in bits as 64-bit big-endian number. -/
def pad (m : Bytes) : Bytes :=
  m ++ [0x80] ++ List.replicate ((119 - m.length % 64) % 64) 0 ++ putUint .be 8 (8 * m.length)

/-- Big-endian words (5.2.1). -/
def words : Bytes → List Nat
  | a :: b :: c :: d :: rest => (((a.toNat * 256 + b.toNat) * 256 + c.toNat) * 256 + d.toNat) :: words rest
  | _ => []

/-- Message schedule (6.2.2, step 1), latest word first: `n` more words. -/
def schedule : Nat → List Nat → List Nat
  | 0, w => w
  | n + 1, w => schedule n (add (add (sigma1 (w.getD 1 0)) (w.getD 6 0)) (add (sigma0 (w.getD 14 0)) (w.getD 15 0)) :: w)

/-- One round (6.2.2, step 3). -/
def round (s : List Nat) (kw : Nat × Nat) : List Nat :=
  match s with
  | [a, b, c, d, e, f, g, h] =>
    let t1 := add (add h (bigSigma1 e)) (add (ch e f g) (add kw.1 kw.2))
    let t2 := add (bigSigma0 a) (maj a b c)
    [add t1 t2, a, b, c, add d t1, e, f, g]
  | s => s

/-- One block of sixteen words (6.2.2). -/
def block (h m : List Nat) : List Nat :=
  List.zipWith add ((ks.zip (schedule 48 m.reverse).reverse).foldl round h) h

/-- All blocks; `n` is the number of them. -/
def blocks : Nat → List Nat → List Nat → List Nat
  | 0, h, _ => h
  | n + 1, h, ws => blocks n (block h (ws.take 16)) (ws.drop 16)

/-- `sha256.Sum256` -/
def sum (m : Bytes) : Bytes :=
  let p := pad m
  (blocks (p.length / 64) init (words p)).flatMap (putUint .be 4)

end Verif.Sha256
