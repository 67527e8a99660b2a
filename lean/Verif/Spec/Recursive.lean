import Verif.Model.Types
/-!
# Recursive types

A type that mentions itself behind a pointer, slice or map is given by its unrollings: `T 0`, `T 1`, … where each is the next one
cut off somewhere behind pointers, slices and maps.  Where it is cut off stands a type that has no encoding.
-/
namespace Verif.Spec

/-- A struct that has no encoding. -/
def dead : Ty := .struct (.cons { name := [], exported := true } .other .nil)

/-- `t` stands for the struct, slice or map `u` that has been cut off. -/
inductive Stump : Ty → Ty → Prop
  | struct (m : FieldMeta) (t : Ty) (fs : Fields) : Stump dead (.struct (.cons m t fs))
  | slice (u : Ty) : Stump .other (.slice u)
  | map (k u : Ty) : Stump .other (.map k u)

mutual
/-- `t` is `u`, or `u` cut off somewhere. -/
inductive Cut : Ty → Ty → Prop
  | same (t : Ty) : Cut t t
  | ptr {t u : Ty} : Cut t u → Cut (.ptr t) (.ptr u)
  | ptrOff {t u : Ty} : Stump t u → Cut (.ptr t) (.ptr u)
  | slice {t u : Ty} : Cut t u → Cut (.slice t) (.slice u)
  | sliceOff {t u : Ty} : Stump t u → Cut (.slice t) (.slice u)
  | array {n : Nat} {t u : Ty} : Cut t u → Cut (.array n t) (.array n u)
  | map {k t u : Ty} : Cut t u → Cut (.map k t) (.map k u)
  | mapOff {k t u : Ty} : Stump t u → Cut (.map k t) (.map k u)
  | struct {fs gs : Fields} : CutFields fs gs → Cut (.struct fs) (.struct gs)
inductive CutFields : Fields → Fields → Prop
  | nil : CutFields .nil .nil
  | keep {m : FieldMeta} {t : Ty} {fs gs : Fields} : CutFields fs gs → CutFields (.cons m t fs) (.cons m t gs)
  /-- Fields that are both `optional` and `coption` are not cut. -/
  | cons {m : FieldMeta} {t u : Ty} {fs gs : Fields} : m.tag.option = false ∨ m.tag.coption = false → Cut t u → CutFields fs gs →
    CutFields (.cons m t fs) (.cons m u gs)
end

/-- The unrollings of a type, each the next one cut off. -/
def Unrolls (T : Nat → Ty) : Prop := ∀ n, Cut (T n) (T (n + 1))

end Verif.Spec
