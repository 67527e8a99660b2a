import Verif.Proofs.SizeZero
import Verif.Proofs.Zeroed
import Verif.Spec.Shape
/-! The value that zeros stand for is the smallest that can be read. -/
set_option linter.unusedSimpArgs false
namespace Verif
open Spec

variable {e : Encoding}

theorem lib_blank_size (l : Lib) (o : Order) : (libWire e l o (blank e (.lib l))).length = libLeast e l := by
  cases l <;> simp [blank, Ty.zero, Lib.zero, libWire, libLeast, prefix_zero, varint, zig]

mutual
theorem blank_size : ∀ (t : Ty) (o : Order) (s : Bool), NoEnum e t = true → noExtension t = true → Returns e t s (blank e t) →
    (wire e t o s (blank e t)).length = least true e t s
  | .bool, o, s, _, _, _ | .borshEnum, o, s, _, _, _ | .uint _ _, o, s, _, _, _ | .int _ _, o, s, _, _, _
  | .f32, o, s, _, _, _ | .f64, o, s, _, _, _ | .iface, o, s, _, _, _ | .plainInt, o, s, _, _, _ | .plainUint, o, s, _, _, _
  | .other, o, s, _, _, _ => by
    simp [blank, Ty.zero, wire, least]
  | .str, o, s, _, _, _ => by
    simp only [blank, Ty.zero, wire, least, strPrefix, List.length_append, List.length_nil, Nat.add_zero]
    split
    · simp
    · exact prefix_zero e
  | .lib l, o, s, _, _, _ => by
    have := lib_blank_size (e := e) l o
    simpa only [wire, least] using this
  | .ptr t, o, s, hn, hx, hr => by
    simp only [NoEnum] at hn
    simp only [noExtension] at hx
    simp only [blank, Returns] at hr
    simp only [blank, wire, least, Option.getD_some, if_true]
    split
    · rename_i h
      have hs := hr.1 h.1
      subst hs
      exact blank_size t .le false hn hx hr.2
    · exact blank_size t o s hn hx hr.2
  | .slice t, o, s, _, _, _ => by
    simp only [blank]
    by_cases he : e = .borsh <;> cases s <;> simp [he, wire, least, prefix_zero]
  | .array n t, o, s, hn, hx, hr => by
    simp only [NoEnum] at hn
    simp only [noExtension] at hx
    simp only [blank, Returns] at hr
    simp only [blank, wire, least]
    refine seq_same n fun h0 => ?_
    cases h : t.uintKind with
    | some w => simp only []; rw [uintKind_blank h]; simp [uintWire]
    | none =>
      simp only [h] at hr
      exact blank_size t .le false hn hx (hr _ (by simp [h0]))
  | .map k t, o, s, _, _, _ => by
    simp [blank, Ty.zero, wire, least, prefix_zero, entries, ascending]
  | .struct fs, o, s, hn, hx, hr => by
    simp only [NoEnum, Bool.and_eq_true, Bool.not_eq_true'] at hn
    have h : ¬ (e = .borsh ∧ fs.isEnum = true) := by
      have := hn.1; intro h; simp [h.1, h.2] at this
    simp only [noExtension] at hx
    simp only [blank, Returns, if_neg h] at hr
    simp only [blank, wire, least, if_neg h]
    exact blank_size_fields fs [] false hn.2 hx hr
theorem blank_size_fields : ∀ (fs : Fields) (names : List Bytes) (seen : Bool), NoEnumFields e fs = true → noExtensions fs = true →
    ReturnsFields e fs names seen (blankFields e fs) → (wireFields e fs names (blankFields e fs)).length = leastFields true e fs names
  | .nil, _, _, _, _, _ => by simp [leastFields, wireFields]
  | .cons m t fs, names, seen, hn, hx, hr => by
    simp only [NoEnumFields, Bool.and_eq_true] at hn
    simp only [blankFields, ReturnsFields] at hr
    simp only [blankFields, wireFields, leastFields, Bool.true_and]
    simp only [noExtensions, Bool.and_eq_true, Bool.not_eq_true'] at hx
    by_cases hk : m.tag.skip = true
    · rw [if_pos hk] at hr
      simp only [hk, if_true]
      exact blank_size_fields fs names seen hn.2 hx.2 hr
    · simp only [Bool.not_eq_true] at hk
      simp only [hk, Bool.false_eq_true, if_false, false_or] at hr ⊢
      have hbx : m.tag.binExt = false := by
        have := hx.1.1; simpa [hk] using this
      have h2 := blank_size_fields fs (announced m names) _ hn.2 hx.2 hr.2.2
      by_cases he : m.exported = true
      · simp only [he, if_true, Bool.true_eq_false, false_or] at hr ⊢
        simp only [hbx, Bool.not_false, Bool.and_true, if_true, List.length_append, h2]
        congr 1
        have hr1 := hr.2.1
        have hz : t.isZero t.zero = true := isZero_zero t
        by_cases ho : m.tag.option = true
        · have hd : (e == .borsh && t.directLib.isSome) = false := by
            by_cases hb : e = .borsh
            · simp [hb, (hr1.2.2.2.1 ho).2 hb]
            · simp [hb]
          simp only [fieldWire, ho, hz, and_self, if_true, flag_length, hd, true_or, Bool.false_eq_true, if_false]
        · by_cases hc : e = .borsh ∧ m.tag.coption = true
          · have hd : (e == .borsh && t.directLib.isSome) = false := by
              simp [(hr1.2.2.2.2.1 hc.1 hc.2).1]
            simp only [fieldWire, ho, hz, if_pos hc, hd, false_and, false_or, if_false, if_true, List.nil_append, cflag_length, Bool.false_eq_true]
          · have hnn : ¬ (m.tag.option = true ∨ (e = .borsh ∧ m.tag.coption = true)) := fun h => h.elim ho hc
            simp only [if_neg hnn] at hr1 ⊢
            have hrt := hr1.2.2.2.2.2 (by simp only [absent]; exact fun h => hnn h.2)
            have hs := blank_size t m.tag.order _ hn.1 hx.1.2 hrt
            simp only [fieldWire, ho, if_neg hc, false_and, if_false, List.nil_append, Bool.false_eq_true]
            rw [hs]
            split
            · rename_i hd
              simp only [Bool.and_eq_true, beq_iff_eq] at hd
              cases t with
              | lib l => simp only [least]
              | ptr t =>
                cases t <;> simp [Ty.directLib, Ty.asLib] at hd
                simp only [least, if_true]
              | _ => simp [Ty.directLib] at hd
            · rfl
      · simp only [Bool.not_eq_true] at he
        simp only [he, Bool.false_eq_true, if_false, Bool.false_and, Nat.zero_add] at hr ⊢
        exact h2
end

end Verif
