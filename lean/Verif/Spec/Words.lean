import Verif.Basic
/-!
# The words of a text

A text is a list of code points; its words are the maximal runs of code points that satisfy `p`.
-/
namespace Verif.Spec
open Verif

/-- `ws` are the words of `rs`. -/
inductive Words (p : Nat → Bool) : List Nat → List (List Nat) → Prop
  | none (sep : List Nat) : (∀ r ∈ sep, p r = false) → Words p sep []
  | last (sep w : List Nat) : (∀ r ∈ sep, p r = false) → w ≠ [] → (∀ r ∈ w, p r = true) → Words p (sep ++ w) [w]
  | more (sep w : List Nat) (r : Nat) (rest : List Nat) (ws : List (List Nat)) : (∀ r ∈ sep, p r = false) → w ≠ [] →
      (∀ r ∈ w, p r = true) → p r = false → Words p rest ws → Words p (sep ++ w ++ r :: rest) (w :: ws)

/-- The pieces with `sep` between them. -/
def spliced (sep : Bytes) : List Bytes → Bytes
  | [] => []
  | [x] => x
  | x :: y :: xs => x ++ sep ++ spliced sep (y :: xs)

end Verif.Spec
