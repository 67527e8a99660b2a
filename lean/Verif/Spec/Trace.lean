import Verif.Model.Types
/-!
Which values hold a map that the encoder gets to.
-/
namespace Verif.Spec
open Verif

mutual
/-- No map occurs in the type. -/
def mapless : Ty → Bool
  | .map _ _ => false
  | .ptr t | .slice t | .array _ t => mapless t
  | .struct fs => maplessF fs
  | _ => true
/-- No map occurs in a field that is not skipped. -/
def maplessF : Fields → Bool
  | .nil => true
  | .cons m t fs => (m.tag.skip || mapless t) && maplessF fs
end

/-- The sizes known after a field: one more if the field is tagged `sizeof=`. -/
def sizes (m : FieldMeta) (t : Ty) (v : Val) (sm : List (Bytes × Int)) : List (Bytes × Int) :=
  if m.tag.sizeOf = [] then sm
  else
    match sizeofVal t.kind v with
    | .ok n => (m.tag.sizeOf, n) :: sm
    | _ => sm

mutual
/-- Writing the value in Bin or CompactU16 comes to a map: not behind nil pointers, not among the elements cut off by a `sizeof` field, not in
skipped, unexported or absent optional fields. -/
def meets : Ty → Option Int → Val → Bool
  | .map _ _, _, .map _ => true
  | .ptr t, o, .ptr (some x) => meets t o x
  | .slice t, o, .seq xs => ((xs.getD []).take (o.getD (xs.getD []).length).toNat).any fun x => meets t none x
  | .array n t, _, .arr xs => (xs.take n).any fun x => meets t none x
  | .struct fs, _, .struct vs => meetsF fs [] vs
  | _, _, _ => false
def meetsF : Fields → List (Bytes × Int) → List Val → Bool
  | .cons m t fs, sm, v :: vs =>
    if m.tag.skip then meetsF fs sm vs
    else
      (m.exported && !(m.tag.option && t.isZero v) && meets t (lookupSize m.name (sizes m t v sm)) v) || meetsF fs (sizes m t v sm) vs
  | _, _, _ => false
end

end Verif.Spec
