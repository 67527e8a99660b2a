import Verif.Model.DecodeReflect
/-!
# Decoding one value after the other

`InTurn t olds xs d d'`: decoding variables of type `t` holding `olds` one after the other gives `xs` and leads from the
decoder `d` to `d'`.  `Pairs`: the same for keys and values in new variables.
-/
namespace Verif.Spec

inductive InTurn (t : Ty) : List Val → List Val → Dec → Dec → Prop
  | nil (d : Dec) : InTurn t [] [] d d
  | cons {old x : Val} {olds xs : List Val} {d d1 d2 : Dec} (first : decode t old d = (.ok x, d1))
      (rest : InTurn t olds xs d1 d2) : InTurn t (old :: olds) (x :: xs) d d2

inductive Pairs (k t : Ty) : List (Val × Val) → Dec → Dec → Prop
  | nil (d : Dec) : Pairs k t [] d d
  | cons {x y : Val} {ps : List (Val × Val)} {d d1 d2 d3 : Dec} (key : decode k k.zero d = (.ok x, d1))
      (value : decode t t.zero d1 = (.ok y, d2)) (rest : Pairs k t ps d2 d3) : Pairs k t ((x, y) :: ps) d d3

/-- The pairs that are not followed by one with an equal key. -/
def lasts (k : Ty) : List (Val × Val) → List (Val × Val)
  | [] => []
  | p :: ps => if ps.any (fun q => k.keyEq p.1 q.1) then lasts k ps else p :: lasts k ps

end Verif.Spec
