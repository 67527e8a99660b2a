import Verif.Basic
/-!
# What C106 asks of the two results of a read
-/
namespace Verif.Spec

/-- `both` is `m` with two results: the value and no error, or the error and `zero`; what it does to the decoder, and whether it panics, is the same. -/
def BothResults {σ α β : Type} (m : M σ α) (val : α → β) (zero : β) (both : M σ (β × Option Err)) : Prop :=
  ∀ s, both s = match m s with
    | (.ok a, s') => (.ok (val a, none), s')
    | (.err x, s') => (.ok (zero, some x), s')
    | (.panic, s') => (.panic, s')

end Verif.Spec
