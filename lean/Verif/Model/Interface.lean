import Verif.Model.DecodeReflect
/-!
# interface.go: the one-call functions
-/
namespace Verif

/-- `MarshalBin` / `MarshalBorsh` / `MarshalCompactU16` (interface.go:39-58): the outcome and the content of the
`bytes.Buffer` (which is returned also when there is an error). -/
def marshal (e : Encoding) (t : Ty) (v : Val) : Res Unit × Bytes :=
  ((encode t v (Enc.new e)).1, (encode t v (Enc.new e)).2.out)

/-- `UnmarshalBin` / `UnmarshalBorsh` / `UnmarshalCompactU16` (interface.go:60-73) into a variable of type `t` holding
`old`: the new content of the variable. -/
def unmarshal (e : Encoding) (t : Ty) (old : Val) (b : Bytes) : Res Val :=
  (decode t old (Dec.new b e)).1

/-- What a `byteCounter` (interface.go:75-82) has counted after these `Write` calls. -/
def byteCounter (writes : List Bytes) : Nat := writes.foldl (fun c p => c + p.length) 0

/-- `BinByteCount` / `BorshByteCount` / `CompactU16ByteCount` (interface.go:84-117). -/
def byteCount (e : Encoding) (t : Ty) (v : Val) : Res Nat :=
  match encode t v (Enc.new e) with
  | (.ok _, s) => .ok (byteCounter s.log)
  | (.err x, _) => .err x
  | (.panic, _) => .panic

/-- `MustBinByteCount` / `MustBorshByteCount` / `MustCompactU16ByteCount` (interface.go:119-144). -/
def mustByteCount (e : Encoding) (t : Ty) (v : Val) : Res Nat :=
  match byteCount e t v with
  | .ok n => .ok n
  | _ => .panic

end Verif
