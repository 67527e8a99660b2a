import Verif.Props.Cases
import Verif.Proofs.HeckReader
/-!
# C50, C51, C64: the case conversions with their reader

`Model/HeckReader` has heck.go statement by statement, with the rune reader and its index.  It does what `Model/Heck` says.
-/
namespace Verif.Props
open Spec

/-- `ToRustSnakeCase` as written does what the shorter model does, so that all theorems about that one hold for it. -/
theorem C50_as_written (U : Uni) (s : Bytes) : toRustSnakeCaseR U s = toRustSnakeCase U s := wordsLoop_eq _ _ _ _ _ _

/-- C50 again, for `ToRustSnakeCase` as written. -/
theorem C50_reader (U : Uni) (hU : U.Ascii) (s : Bytes) (hs : AsciiS s) : toRustSnakeCaseR U s = .ok (snake s) := by
  rw [C50_as_written, (C50_exact U hU s hs).1]

/-- `ToPascalCase` as written. -/
theorem C51_as_written (U : Uni) (s : Bytes) : toPascalCaseR U s = toPascalCase U s := by
  unfold toPascalCaseR toPascalCase
  rw [wordsLoop_eq, funext (capitalizeInto_eq U)]

/-- C51 again, for `ToPascalCase` as written. -/
theorem C51_reader (U : Uni) (hU : U.Ascii) (s : Bytes) (hs : AsciiS s) : toPascalCaseR U s = .ok (pascal s) := by
  rw [C51_as_written, C51_exact U hU s hs]

/-- C64 again: no index of the reader and no slice is out of range, whatever the bytes and whatever the Unicode tables. -/
theorem C64_reader (U : Uni) (s : Bytes) : (∃ t, toRustSnakeCaseR U s = .ok t) ∧ ∃ t, toPascalCaseR U s = .ok t := by
  rw [C50_as_written, C51_as_written]
  exact C64_total U s

example : toRustSnakeCaseR asciiUni ("HTTPServerError_v2".toUTF8.toList) = .ok ("http_server_error_v2".toUTF8.toList) := by
  decide +kernel

/-- Bytes that are no UTF-8. -/
example : toPascalCaseR { asciiUni with isLetter := fun _ => true } [0xFF, 0xFF] = .ok [0xEF, 0xBF, 0xBD, 0xEF, 0xBF, 0xBD] := by decide +kernel

end Verif.Props
