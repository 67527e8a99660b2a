import Verif.Model.Memory
import Verif.Model.Text
/-! # tools.go: formatting for people -/
namespace Verif

/-- Go std `strings.Join(elems, ", ")`. -/
def joinComma : List Bytes → Bytes
  | [] => []
  | [w] => w
  | w :: ws => w ++ [44, 32] ++ joinComma ws

/-- `"{" + strings.Join(elems, ", ") + "}"` (tools.go:30,38). -/
def braced (buf : Bytes) : Bytes := [123] ++ joinComma (buf.map fun b => decimal b.toNat) ++ [125]

/-- `FormatByteSlice` (tools.go:24-31). -/
def formatByteSlice (buf : Bytes) : Bytes :=
  braced buf ++ ([40, 108, 101, 110, 61] ++ decimal buf.length ++ [41])

/-- `FormatDiscriminator` (tools.go:33-39). -/
def formatDiscriminator (disc : Bytes) : Bytes := braced disc

/-- The loop of `WriteByWrite.String` (tools.go:70-72). -/
def recLines : Nat → List Bytes → Bytes
  | _, [] => []
  | i, v :: vs => [45, 32] ++ decimal i ++ [58, 32] ++ formatByteSlice v ++ [10] ++ recLines (i + 1) vs

/-- `WriteByWrite.String` (tools.go:65-74), given the contents of the recorded slices. -/
def recString (name : Bytes) (writes : List Bytes) : Bytes :=
  (if name ≠ [] then name ++ [58, 10] else []) ++ recLines 0 writes

end Verif
