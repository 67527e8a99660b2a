import Verif.Spec.Heap
/-!
# What a variable shows
-/
namespace Verif.Spec

mutual
/-- `Shows h x v`: followed through the heap `h`, the content `x` is the value `v`.  Unlike in `Tree`, an address may be visited
any number of times. -/
inductive Shows (h : Heap) : HVal → Val → Prop
  | leaf {v : Val} : Flat v → Shows h (.leaf v) v
  | nilPtr : Shows h (.ptr none) (.ptr none)
  | ptr {a : Nat} {x : HVal} {v : Val} : h.cell a = .one x → Shows h x v → Shows h (.ptr (some a)) (.ptr (some v))
  | nilSeq : Shows h (.seq none) (.seq none)
  | seq {a : Nat} {xs : List HVal} {vs : List Val} : h.cell a = .many xs → ShowsAll h xs vs →
      Shows h (.seq (some a)) (.seq (some vs))
  | arr {xs : List HVal} {vs : List Val} : ShowsAll h xs vs → Shows h (.arr xs) (.arr vs)
  | nilMap : Shows h (.map none) (.map none)
  | map {a : Nat} {m : List (HVal × HVal)} {ps : List (Val × Val)} : h.cell a = .table m → ShowsPairs h m ps →
      Shows h (.map (some a)) (.map (some ps))
  | struct {xs : List HVal} {vs : List Val} : ShowsAll h xs vs → Shows h (.struct xs) (.struct vs)
inductive ShowsAll (h : Heap) : List HVal → List Val → Prop
  | nil : ShowsAll h [] []
  | cons {x : HVal} {v : Val} {xs : List HVal} {vs : List Val} : Shows h x v → ShowsAll h xs vs →
      ShowsAll h (x :: xs) (v :: vs)
inductive ShowsPairs (h : Heap) : List (HVal × HVal) → List (Val × Val) → Prop
  | nil : ShowsPairs h [] []
  | cons {k x : HVal} {kv v : Val} {m : List (HVal × HVal)} {ps : List (Val × Val)} :
      Shows h k kv → Shows h x v → ShowsPairs h m ps → ShowsPairs h ((k, x) :: m) ((kv, v) :: ps)
end

end Verif.Spec
