import Verif.Spec.Zero
import Verif.Spec.Shape
/-! # `IsZero` is comparison with the zero value -/
namespace Verif
open Spec

private theorem f64_zero {n : Nat} (h : n < 2 ^ 64) :
    isZeroFloat 64 n = true ↔ (if n = 0x8000000000000000 then 0 else n) = 0 := by
  simp only [isZeroFloat, beq_iff_eq, show (64 - 1 : Nat) = 63 from rfl]
  split <;> omega

private theorem f32_zero {n : Nat} (h : n < 2 ^ 32) :
    isZeroFloat 32 n = true ↔ (if n = 0x80000000 then 0 else n) = 0 := by
  simp only [isZeroFloat, beq_iff_eq, show (32 - 1 : Nat) = 31 from rfl]
  split <;> omega

private theorem lib_zero {N : Nat} (l : Lib) (v : Val) (hs : LibShaped N l v) (hf : FloatSized (.lib l) v) :
    l.isZero v = true ↔ plus (.lib l) v = l.zero := by
  cases l <;> cases v <;> simp only [LibShaped] at hs <;>
    first
    | (simp [Lib.isZero, plus, Lib.zero]; done)
    | (simp only [FloatSized] at hf; simp only [Lib.isZero, plus, Lib.zero, f64_zero hf, Val.float.injEq]; done)
    | (simp [Lib.isZero, plus, Lib.zero, and_assoc]; done)
    | skip
  rename_i xs
  cases xs <;> simp [Lib.isZero, plus, Lib.zero] at hs ⊢

mutual
theorem isZero_iff {N : Nat} : (t : Ty) → (v : Val) → Shaped N t v → FloatSized t v → (t.isZero v = true ↔ plus t v = t.zero)
  | .lib l, v, hs, hf => by
    simp only [Shaped] at hs
    simp only [Ty.isZero, Ty.zero]
    exact lib_zero l v hs hf
  | .f32, v, hs, hf => by
    cases v <;> simp only [Shaped] at hs
    simp only [FloatSized] at hf
    simp only [Ty.isZero, plus, Ty.zero, f32_zero hf, Val.float.injEq]
  | .f64, v, hs, hf => by
    cases v <;> simp only [Shaped] at hs
    simp only [FloatSized] at hf
    simp only [Ty.isZero, plus, Ty.zero, f64_zero hf, Val.float.injEq]
  | .array n t, v, hs, hf => by
    cases v <;> simp only [Shaped] at hs
    simp only [FloatSized] at hf
    rename_i xs
    simp only [Ty.isZero, plus, Ty.zero, Val.arr.injEq, List.all_eq_true, List.eq_replicate_iff, List.length_map, hs.1, true_and,
      List.mem_map, forall_exists_index, and_imp, forall_apply_eq_imp_iff₂]
    constructor
    · intro h x hx
      exact (isZero_iff t x (hs.2 x hx) (hf x hx)).1 (h x hx)
    · intro h x hx
      exact (isZero_iff t x (hs.2 x hx) (hf x hx)).2 (h x hx)
  | .struct fs, v, hs, hf => by
    cases v <;> simp only [Shaped] at hs
    simp only [FloatSized] at hf
    simp only [Ty.isZero, plus, Ty.zero, Val.struct.injEq]
    exact allZero_iff fs _ hs hf
  | .bool, v, hs, _ | .uint .., v, hs, _ | .int .., v, hs, _ | .borshEnum, v, hs, _ | .str, v, hs, _ | .ptr _, v, hs, _
  | .slice _, v, hs, _ | .map _ _, v, hs, _ | .iface, v, hs, _ | .plainInt, v, hs, _ | .plainUint, v, hs, _
  | .other, v, hs, _ => by
    cases v <;> simp only [Shaped] at hs <;> simp [Ty.isZero, plus, Ty.zero]
theorem allZero_iff {N : Nat} : (fs : Fields) → (vs : List Val) → ShapedFields N fs vs → FloatSizedFields fs vs →
    (fs.allZero vs = true ↔ plusFields fs vs = fs.zeros)
  | .nil, [], _, _ => by simp [Fields.allZero, plusFields, Fields.zeros]
  | .nil, _ :: _, hs, _ => by simp [ShapedFields] at hs
  | .cons .., [], hs, _ => by simp [ShapedFields] at hs
  | .cons m t fs, v :: vs, hs, hf => by
    simp only [ShapedFields] at hs
    simp only [FloatSizedFields] at hf
    simp only [Fields.allZero, plusFields, Fields.zeros, Bool.and_eq_true, List.cons.injEq,
      isZero_iff t v hs.1 hf.1, allZero_iff fs vs hs.2 hf.2]
end

end Verif
