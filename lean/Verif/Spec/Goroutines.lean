import Verif.Model.Goroutines
/-!
What C107 says about goroutines.
-/
namespace Verif.Spec
open Verif

/-- Every renaming is taken back, the latest first. -/
inductive Balanced : List LogEvent → Prop where
  | nil : Balanced []
  | wrap (n : LogName) {w w' : List LogEvent} (h : Balanced w) (h' : Balanced w') : Balanced (.enter n :: w ++ .leave :: w')

/-- One goroutine after the other, in the order `is`, each until it is done. -/
def inTurns (gs : List Goroutine) (is : List Nat) : List Nat :=
  is.flatMap fun i => List.replicate ((gs[i]?.map fun g => g.todo.length).getD 0) i

end Verif.Spec
