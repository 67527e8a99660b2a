import Verif.Model.Decoder
/-!
# Slices as references

The rest of the model treats `[]byte` as a value.  Here a slice is a window on an array in memory, to say which calls
share memory with their input: `readNBytes`, `ReadByteSlice`, `Peek`, `Read` (decoder.go:231-246, 281-294, 306-317,
352-369) and `WriteByWrite` (tools.go:41-74).
-/
namespace Verif

/-- Arrays by address. -/
abbrev Mem := Nat → Bytes

/-- A Go slice: a window of `len` bytes at `off` in array `addr`, extensible to `cap` bytes. -/
structure Slice where
  addr : Nat
  off : Nat
  len : Nat
  cap : Nat
  deriving DecidableEq, Repr

/-- Content of a slice. -/
def Mem.read (m : Mem) (s : Slice) : Bytes := ((m s.addr).drop s.off).take s.len

/-- Overwrite the bytes of array `a` from index `i`. -/
def Mem.store (m : Mem) (a i : Nat) (bs : Bytes) : Mem :=
  fun x => if x = a then (m a).take i ++ bs ++ (m a).drop (i + bs.length) else m x

/-- `s[i:i+n]`: the capacity extends to that of `s`. -/
def Slice.sub (s : Slice) (i n : Nat) : Slice := { addr := s.addr, off := s.off + i, len := n, cap := s.cap - i }

/-- `append(s, bs...)`: in place when the capacity allows, otherwise a new array at the unused address `fresh`. -/
def Mem.append (m : Mem) (fresh : Nat) (s : Slice) (bs : Bytes) : Mem × Slice :=
  if s.len + bs.length ≤ s.cap then (m.store s.addr (s.off + s.len) bs, { s with len := s.len + bs.length })
  else (fun x => if x = fresh then m.read s ++ bs else m x,
    { addr := fresh, off := 0, len := s.len + bs.length, cap := s.len + bs.length })

/-- A decoder holding its input by reference (decoder.go:71-78). -/
structure RefDec where
  data : Slice
  pos : Int
  cur : Option Order
  enc : Encoding

/-- The decoder seen by the rest of the model. -/
def RefDec.abs (d : RefDec) (m : Mem) : Dec := { data := m.read d.data, pos := d.pos, cur := d.cur, enc := d.enc }

/-- The empty slice `make([]byte, 0)`. -/
def emptySlice : Slice := { addr := 0, off := 0, len := 0, cap := 0 }

/-- `readNBytes` (decoder.go:281-294), `ReadNBytes`, `ReadBytes`: a window on the input.  The cursor is inside the
input. -/
def refReadNBytes (n : Int) (d : RefDec) : Res Slice × RefDec :=
  if n = 0 then (.ok emptySlice, d)
  else if n < 0 ∨ n > 0x7FFFFFFF then (.err .invalidLen, d)
  else if d.pos + n > d.data.len then (.err .notEnough, d)
  else (.ok (d.data.sub d.pos.toNat n.toNat), { d with pos := d.pos + n })

/-- `Peek` (decoder.go:352-369): a window on the input. -/
def refPeek (n : Int) (d : RefDec) : Res Slice × RefDec :=
  if n < 0 then (.err .invalidLen, d)
  else if (d.data.len : Int) - d.pos < n then (.err .notEnough, d)
  else (.ok (d.data.sub d.pos.toNat n.toNat), d)

/-- `ReadByteSlice` (decoder.go:231-246): a window on the input behind the length prefix, which is read by value. -/
def refReadByteSlice (m : Mem) (d : RefDec) : Res Slice × RefDec :=
  match readLength (d.abs m) with
  | (.ok n, d1) =>
    if (d.data.len : Int) < d1.pos + n then (.err .notEnough, { d with pos := d1.pos })
    else (.ok (d.data.sub d1.pos.toNat n), { d with pos := d1.pos + n })
  | (.err x, d1) => (.err x, { d with pos := d1.pos })
  | (.panic, d1) => (.panic, { d with pos := d1.pos })

/-- `Read(buf)` (decoder.go:306-317): copies into the caller's slice. -/
def refRead (m : Mem) (buf : Slice) (d : RefDec) : Res Unit × RefDec × Mem :=
  if d.pos + buf.len > d.data.len then (.err .shortBuffer, d, m)
  else (.ok (), { d with pos := d.pos + buf.len },
    m.store buf.addr buf.off (m.read (d.data.sub d.pos.toNat buf.len)))

/-- What a program does with a `WriteByWrite` and its own buffers. -/
inductive RecEv where
  /-- `rec.Write(b)` (tools.go:52-55) -/
  | write (b : Slice)
  /-- the caller changes an array -/
  | store (a i : Nat) (bs : Bytes)

/-- The recorder keeps the slices themselves (tools.go:53). -/
def recRun (m : Mem) (writes : List Slice) : List RecEv → Mem × List Slice
  | [] => (m, writes)
  | .write b :: evs => recRun m (writes ++ [b]) evs
  | .store a i bs :: evs => recRun (m.store a i bs) writes evs

/-- `WriteByWrite.Bytes` (tools.go:57-63). -/
def recBytes (m : Mem) (writes : List Slice) : Bytes := writes.flatMap m.read

end Verif
