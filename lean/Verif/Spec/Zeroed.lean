import Verif.Spec.Wire
/-!
# Spec: the value that zero bytes stand for
-/
namespace Verif.Spec
open Verif

mutual
/-- The zero value, except that untagged pointers lead to something, slices (outside Borsh) and `HexBytes` are empty and not nil, and a Borsh
enum has its first variant. -/
def blank (e : Encoding) : Ty → Val
  | .ptr t => .ptr (some (blank e t))
  | .slice _ => if e = .borsh then .seq none else .seq (some [])
  | .array n t => .arr (List.replicate n (blank e t))
  | .lib .hexBytes => .bytes (some [])
  | .struct fs => if e = .borsh ∧ fs.isEnum then .struct (blankEnum e fs) else .struct (blankFields e fs)
  | t => t.zero
/-- Fields that are not read and fields under a presence flag stay zero. -/
def blankFields (e : Encoding) : Fields → List Val
  | .nil => []
  | .cons m t fs =>
    (if m.tag.skip ∨ m.exported = false ∨ m.tag.option ∨ (e = .borsh ∧ m.tag.coption) then t.zero else blank e t) :: blankFields e fs
/-- The tag and the first variant. -/
def blankEnum (e : Encoding) : Fields → List Val
  | .nil => []
  | .cons _ _ fs => .uint 0 :: blankFirst e fs
def blankFirst (e : Encoding) : Fields → List Val
  | .nil => []
  | .cons _ t fs => blank e t :: fs.zeros
end

mutual
/-- Types for which that is the zero value itself. -/
def Straight (e : Encoding) : Ty → Bool
  | .ptr _ => false
  | .slice _ => e == .borsh
  | .array _ t => Straight e t
  | .lib l => l != .hexBytes
  | .struct fs => if e = .borsh ∧ fs.isEnum then StraightEnum e fs else StraightFields e fs
  | _ => true
def StraightFields (e : Encoding) : Fields → Bool
  | .nil => true
  | .cons m t fs => (m.tag.skip || !m.exported || m.tag.option || (e == .borsh && m.tag.coption) || Straight e t) && StraightFields e fs
def StraightEnum (e : Encoding) : Fields → Bool
  | .nil => true
  | .cons _ _ fs => StraightFirst e fs
def StraightFirst (e : Encoding) : Fields → Bool
  | .nil => true
  | .cons _ t _ => Straight e t
end

end Verif.Spec
