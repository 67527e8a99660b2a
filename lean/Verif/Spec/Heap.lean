import Verif.Model.Heap
/-!
# Which memory a variable consists of
-/
namespace Verif.Spec

mutual
/-- The pointers stored in a variable: in itself, in the elements of an array, in the fields of a struct.  What lies behind
slices and maps does not count. -/
def pointers : HVal → List Nat
  | .ptr (some a) => [a]
  | .arr xs => pointersAll xs
  | .struct xs => pointersAll xs
  | _ => []
def pointersAll : List HVal → List Nat
  | [] => []
  | x :: xs => pointers x ++ pointersAll xs
end

/-- `Follows h x b`: starting from the content `x` of a variable, the variable at `b` is reached through pointers. -/
inductive Follows (h : Heap) : HVal → Nat → Prop
  | here {x : HVal} {a : Nat} : a ∈ pointers x → Follows h x a
  | next {x y : HVal} {a b : Nat} : a ∈ pointers x → h.cell a = .one y → Follows h y b → Follows h x b

/-- Values without parts. -/
def Flat : Val → Prop
  | .ptr _ | .seq _ | .arr _ | .map _ | .struct _ => False
  | _ => True

mutual
/-- `Tree h x v S`: followed through the heap `h`, the content `x` is the value `v`; the addresses visited on the way are `S`,
and none is visited twice. -/
inductive Tree (h : Heap) : HVal → Val → List Nat → Prop
  | leaf {v : Val} : Flat v → Tree h (.leaf v) v []
  | nilPtr : Tree h (.ptr none) (.ptr none) []
  | ptr {a : Nat} {x : HVal} {v : Val} {S : List Nat} : h.cell a = .one x → Tree h x v S → a ∉ S →
      Tree h (.ptr (some a)) (.ptr (some v)) (a :: S)
  | nilSeq : Tree h (.seq none) (.seq none) []
  | seq {a : Nat} {xs : List HVal} {vs : List Val} {S : List Nat} : h.cell a = .many xs → Trees h xs vs S → a ∉ S →
      Tree h (.seq (some a)) (.seq (some vs)) (a :: S)
  | arr {xs : List HVal} {vs : List Val} {S : List Nat} : Trees h xs vs S → Tree h (.arr xs) (.arr vs) S
  | nilMap : Tree h (.map none) (.map none) []
  | map {a : Nat} {m : List (HVal × HVal)} {ps : List (Val × Val)} {S : List Nat} : h.cell a = .table m →
      TreePairs h m ps S → a ∉ S → Tree h (.map (some a)) (.map (some ps)) (a :: S)
  | struct {xs : List HVal} {vs : List Val} {S : List Nat} : Trees h xs vs S → Tree h (.struct xs) (.struct vs) S
inductive Trees (h : Heap) : List HVal → List Val → List Nat → Prop
  | nil : Trees h [] [] []
  | cons {x : HVal} {v : Val} {xs : List HVal} {vs : List Val} {S T : List Nat} : Tree h x v S → Trees h xs vs T →
      (∀ a ∈ S, a ∉ T) → Trees h (x :: xs) (v :: vs) (S ++ T)
inductive TreePairs (h : Heap) : List (HVal × HVal) → List (Val × Val) → List Nat → Prop
  | nil : TreePairs h [] [] []
  | cons {k x : HVal} {kv v : Val} {m : List (HVal × HVal)} {ps : List (Val × Val)} {S T U : List Nat} :
      Tree h k kv S → Tree h x v T → TreePairs h m ps U → (∀ a ∈ S, a ∉ T) → (∀ a ∈ S ++ T, a ∉ U) →
      TreePairs h ((k, x) :: m) ((kv, v) :: ps) (S ++ T ++ U)
end

/-- The addresses that are in use. -/
def Used (h : Heap) (S : List Nat) : Prop := ∀ a ∈ S, a < h.next

/-- Nothing is stored at the unused addresses. -/
def Clean (h : Heap) : Prop := ∀ b, h.next ≤ b → h.cell b = .one (.leaf .nil)

end Verif.Spec
