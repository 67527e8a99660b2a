import Verif.Model.Types
/-!
# Spec: a declaration without the tags that have no effect
-/
namespace Verif.Spec
open Verif

/-- What counts in the tag of a field of a plain struct: `enum` does not, `coption` only in Borsh, and for a skipped field nothing else
does. -/
def paredTag (e : Encoding) (g : FieldTag) : FieldTag :=
  if g.skip then { skip := true } else { g with coption := g.coption && e == .borsh, isEnum := false }

/-- What counts in a Borsh enum: on its first field `enum`, on the variants nothing. -/
def headTag (g : FieldTag) : FieldTag := { isEnum := g.isEnum }

mutual
/-- The type without the tags that have no effect, at every depth. -/
def pared (e : Encoding) : Ty → Ty
  | .ptr t => .ptr (pared e t)
  | .slice t => .slice (pared e t)
  | .array n t => .array n (pared e t)
  | .map k t => .map (pared e k) (pared e t)
  | .struct fs =>
    .struct (if e = .borsh ∧ fs.isEnum then paredFields e headTag (fun _ => {}) fs else paredFields e (paredTag e) (paredTag e) fs)
  | .bool => .bool
  | .uint w n => .uint w n
  | .int w n => .int w n
  | .borshEnum => .borshEnum
  | .f32 => .f32
  | .f64 => .f64
  | .str => .str
  | .lib l => .lib l
  | .iface => .iface
  | .plainInt => .plainInt
  | .plainUint => .plainUint
  | .other => .other
/-- The fields: `g` for the tag of the first one, `h` for the others. -/
def paredFields (e : Encoding) (g h : FieldTag → FieldTag) : Fields → Fields
  | .nil => .nil
  | .cons m t fs => .cons { m with tag := g m.tag } (pared e t) (paredFields e h h fs)
end

end Verif.Spec
