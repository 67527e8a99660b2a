import Verif.Model.Types
/-! Other names for the fields of a struct, independently of the coder: every field name, and every name a `sizeof` tag
refers to, is replaced by `ρ`. -/

namespace Verif.Spec

/-- A change of names that keeps different names different; the empty name stands for "no `sizeof` tag" and is kept. -/
def Renaming (ρ : Bytes → Bytes) : Prop := (∀ a b, ρ a = ρ b → a = b) ∧ ρ [] = []

/-- A field under its new name. -/
def renamedMeta (ρ : Bytes → Bytes) (m : FieldMeta) : FieldMeta :=
  { m with name := ρ m.name, tag := { m.tag with sizeOf := ρ m.tag.sizeOf } }

mutual
/-- The type with new names, at every depth. -/
def renamed (ρ : Bytes → Bytes) : Ty → Ty
  | .bool => .bool
  | .uint w n => .uint w n
  | .int w n => .int w n
  | .borshEnum => .borshEnum
  | .f32 => .f32
  | .f64 => .f64
  | .str => .str
  | .lib l => .lib l
  | .ptr t => .ptr (renamed ρ t)
  | .slice t => .slice (renamed ρ t)
  | .array n t => .array n (renamed ρ t)
  | .map k t => .map (renamed ρ k) (renamed ρ t)
  | .struct fs => .struct (renamedFields ρ fs)
  | .iface => .iface
  | .plainInt => .plainInt
  | .plainUint => .plainUint
  | .other => .other
def renamedFields (ρ : Bytes → Bytes) : Fields → Fields
  | .nil => .nil
  | .cons m t fs => .cons (renamedMeta ρ m) (renamed ρ t) (renamedFields ρ fs)
end

end Verif.Spec
