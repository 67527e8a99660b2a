import Verif.Model.Encoder
/-!
# Writers that take part of a chunk

`io.Writer.Write` returns how many bytes it has taken and an error.  The encoder looks at the error only (`_, err = e.output.Write(bytes)`,
encoder.go:93), so that the encoder of `Model/Encoder` on the writer's errors (`Writer.sink`) is the encoder on the writer.  `Write`
(encoder.go:117-123) also returns the number.
-/
namespace Verif

/-- An `io.Writer`: after these calls of `Write`, given this chunk, how many bytes does it take, and is the error nil? -/
abbrev Writer := List Bytes → Bytes → Nat × Bool

/-- What the encoder looks at (encoder.go:93). -/
def Writer.sink (w : Writer) : Sink := fun h c => (w h c).2

/-- What has reached its destination after these calls: of each chunk the part that was taken. -/
def Writer.received (w : Writer) (log : List Bytes) : Bytes :=
  ((List.range log.length).map fun i => (log.getD i []).take (w (log.take i) (log.getD i [])).1).flatten

/-- `Write` (encoder.go:117-123): the number the writer returned, whether the error is nil, and the encoder. -/
def encWriteN (w : Writer) (b : Bytes) (s : Enc) : (Nat × Bool) × Enc :=
  let s' := { s with count := s.count + b.length, log := s.log ++ [b] }
  (w s.log b, s')

end Verif
