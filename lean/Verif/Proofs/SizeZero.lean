import Verif.Proofs.Size
import Verif.Proofs.Same
/-! Zero values have the least size. -/
set_option linter.unusedSimpArgs false
namespace Verif
open Spec

namespace Spec
mutual
/-- No Borsh enum is part of the zero value. -/
def NoEnum (e : Encoding) : Ty → Bool
  | .ptr t | .array _ t => NoEnum e t
  | .struct fs => !(e == .borsh && fs.isEnum) && NoEnumFields e fs
  | _ => true
def NoEnumFields (e : Encoding) : Fields → Bool
  | .nil => true
  | .cons _ t fs => NoEnum e t && NoEnumFields e fs
end
end Spec

variable {e : Encoding}

theorem prefix_zero (e : Encoding) : (lenPrefix e 0).length = prefixLeast e := by
  cases e
  · simp [lenPrefix, prefixLeast, varint]
  · simp [lenPrefix, prefixLeast, compact]
  · simp [lenPrefix, prefixLeast]
  · simp [lenPrefix, prefixLeast]

theorem lib_zero_size (l : Lib) (o : Order) : (libWire e l o l.zero).length = libLeast e l := by
  cases l <;> simp [Lib.zero, libWire, libLeast, prefix_zero, varint, zig]

theorem seq_same {f : Val → Bytes} {x : Val} {k : Nat} (n : Nat) (h : n ≠ 0 → (f x).length = k) : ((List.replicate n x).flatMap f).length = n * k := by
  induction n with
  | zero => simp
  | succ n ih =>
    rw [List.replicate_succ, List.flatMap_cons, List.length_append, h (by simp), Nat.add_mul]
    have : ((List.replicate n x).flatMap f).length = n * k := ih fun _ => h (by simp)
    omega

mutual
theorem zero_size : ∀ (t : Ty) (o : Order) (z : Option Int) (s : Bool), NoEnum e t = true → Encodable e t z t.zero →
    (wire e t o s t.zero).length = least false e t s
  | .bool, o, z, s, hn, hv | .borshEnum, o, z, s, hn, hv | .uint _ _, o, z, s, hn, hv | .int _ _, o, z, s, hn, hv
  | .f32, o, z, s, hn, hv | .f64, o, z, s, hn, hv => by
    simp [Ty.zero, wire, least]
  | .str, o, z, s, hn, hv => by
    simp only [Ty.zero, wire, least, strPrefix, List.length_append, List.length_nil, Nat.add_zero]
    split
    · simp
    · exact prefix_zero e
  | .lib l, o, z, s, hn, hv => by
    simp only [wire, least, Ty.zero]
    exact lib_zero_size l o
  | .ptr t, o, z, s, hn, hv => by
    simp only [NoEnum] at hn
    simp only [Ty.zero, Encodable] at hv
    simp only [Ty.zero, wire, least, Bool.false_eq_true, if_false, Option.getD_none]
    by_cases he : e = .borsh
    · by_cases ht : t.asLib = none
      · simp only [if_pos (And.intro he ht), if_pos he, if_pos ht]
        simp only [ht] at hv
        exact zero_size t .le none false hn (hv he)
      · simp only [if_neg (fun h : e = .borsh ∧ t.asLib = none => ht h.2), if_pos he, if_neg ht, List.length_nil]
    · simp only [if_neg (fun h : e = .borsh ∧ t.asLib = none => he h.1), if_neg he]
      cases ht : t.asLib with
      | none => simp
      | some l =>
        cases t <;> simp [Ty.asLib] at ht
        subst ht
        simp only [Ty.asLib, he, false_or] at hv
        subst hv
        simp [least, libLeast]
  | .slice t, o, z, s, hn, hv => by
    cases s <;> simp [Ty.zero, wire, least, prefix_zero]
  | .array n t, o, z, s, hn, hv => by
    simp only [NoEnum] at hn
    simp only [Ty.zero, Encodable] at hv
    simp only [Ty.zero, wire, least]
    refine seq_same n fun h0 => ?_
    have := hv.2 t.zero (by simp [h0])
    split at this
    · rename_i h; simp only [h]; exact uint_size this
    · rename_i h; simp only [h]; exact zero_size t .le none false hn this
  | .map k t, o, z, s, hn, hv => by
    simp [Ty.zero, wire, least, prefix_zero, entries, ascending]
  | .struct fs, o, z, s, hn, hv => by
    simp only [NoEnum, Bool.and_eq_true, Bool.not_eq_true'] at hn
    have h : ¬ (e = .borsh ∧ fs.isEnum = true) := by
      have := hn.1; intro h; simp [h.1, h.2] at this
    simp only [Ty.zero, Encodable, if_neg h] at hv
    simp only [Ty.zero, wire, least, if_neg h]
    exact zero_size_fields fs [] [] hn.2 hv
  | .iface, o, z, s, hn, hv => by simp [Ty.zero, wire, least]
  | .plainInt, _, _, _, _, hv | .plainUint, _, _, _, _, hv | .other, _, _, _, _, hv => by
    simp [Ty.zero, Encodable] at hv
theorem zero_size_fields : ∀ (fs : Fields) (names : List Bytes) (sm : List (Bytes × Int)), NoEnumFields e fs = true →
    EncodableFields e fs sm fs.zeros → (wireFields e fs names fs.zeros).length = leastFields false e fs names
  | .nil, _, _, _, _ => by simp [leastFields, wireFields]
  | .cons m t fs, names, sm, hn, hv => by
    simp only [NoEnumFields, Bool.and_eq_true] at hn
    simp only [Fields.zeros, EncodableFields] at hv
    simp only [Fields.zeros, wireFields, leastFields, Bool.false_and, Bool.not_false, Bool.and_true, Bool.false_eq_true, if_false]
    by_cases hk : m.tag.skip = true
    · rw [if_pos hk] at hv
      simp only [hk, if_true]
      exact zero_size_fields fs names sm hn.2 hv
    · rw [if_neg hk] at hv
      simp only [Bool.not_eq_true] at hk
      simp only [hk, Bool.false_eq_true, if_false]
      cases ha : announce m t t.zero sm with
      | none => rw [ha] at hv; exact hv.elim
      | some sm' =>
        rw [ha] at hv
        have h2 := zero_size_fields fs (announced m names) sm' hn.2 hv.2
        by_cases hx : m.exported = true
        · simp only [hx, if_true, List.length_append, h2]
          congr 1
          have hz : t.isZero t.zero = true := isZero_zero t
          by_cases ho : m.tag.option = true
          · simp only [fieldWire, ho, hz, and_self, if_true, flag_length]
          · by_cases hc : e = .borsh ∧ m.tag.coption = true
            · simp only [fieldWire, ho, if_pos hc, hz, false_and, if_false, if_true, List.nil_append, cflag_length, Bool.false_eq_true]
            · simp only [fieldWire, if_neg ho, if_neg hc, ho, false_and, if_false, List.nil_append]
              exact zero_size t m.tag.order _ _ hn.1 (hv.1 hx (by simp only [absent, not_and, not_or]; exact fun _ => ⟨ho, fun h h' => hc ⟨h, h'⟩⟩))
        · simp only [hx, if_false, Bool.false_eq_true, Nat.zero_add]
          exact h2
end

end Verif
