import Verif.Spec.Zeroed
import Verif.Spec.Copy
import Verif.Proofs.Same
import Verif.Proofs.Layout
/-! Zero bytes. -/
set_option linter.unusedSimpArgs false
namespace Verif
open Spec

variable {e : Encoding}

/-- nothing but zero bytes -/
abbrev Zeros (x : Bytes) : Prop := ∀ b ∈ x, b = 0

theorem Zeros.append {a b : Bytes} (ha : Zeros a) (hb : Zeros b) : Zeros (a ++ b) := fun x hx => by
  rcases List.mem_append.mp hx with h | h
  · exact ha x h
  · exact hb x h

theorem Zeros.nil : Zeros [] := fun _ h => by simp at h

theorem Zeros.eq {x : Bytes} (h : Zeros x) : x = List.replicate x.length 0 := List.eq_replicate_iff.mpr ⟨rfl, h⟩

theorem fixed_zero (o : Order) (k : Nat) : Zeros (fixed o k 0) := by
  intro b hb
  cases o <;> simp [fixed] at hb <;> exact hb.2.symm

theorem lenPrefix_zero (e : Encoding) : Zeros (lenPrefix e 0) := by
  cases e
  · intro b hb; simpa [lenPrefix, varint] using hb
  · intro b hb; simpa [lenPrefix, compact] using hb
  · exact fixed_zero .le 4
  · exact Zeros.nil

theorem strPrefix_zero (e : Encoding) : Zeros (strPrefix e 0) := by
  unfold strPrefix; split
  · exact fixed_zero _ _
  · exact lenPrefix_zero e

theorem lib_blank (l : Lib) (o : Order) : Zeros (libWire e l o (blank e (.lib l))) := by
  cases l <;> simp only [blank, Ty.zero, Lib.zero, libWire, Option.getD_some, List.length_nil, List.append_nil, Option.getD_none] <;>
    first
    | exact lenPrefix_zero e
    | exact fixed_zero _ _
    | (intro b hb; simpa [varint, zig, twos] using hb)

theorem flag_zero (e : Encoding) : Zeros (flag e false) := fixed_zero _ _
theorem cflag_zero : Zeros (cflag false) := fixed_zero _ _

theorem uintKind_blank {t : Ty} {w : Width} (h : t.uintKind = some w) : blank e t = .uint 0 := by
  cases t with
  | lib l => cases l <;> simp [Ty.uintKind, Ty.kind, Lib.kind] at h <;> simp [blank, Ty.zero, Lib.zero]
  | _ => simp [Ty.uintKind, Ty.kind] at h <;> simp [blank, Ty.zero]

theorem Zeros.seq {f : Val → Bytes} {x : Val} (h : Zeros (f x)) (n : Nat) : Zeros ((List.replicate n x).flatMap f) := by
  intro b hb
  obtain ⟨y, hy, hb⟩ := List.mem_flatMap.mp hb
  rw [(List.mem_replicate.mp hy).2] at hb
  exact h b hb

mutual
theorem blank_wire : ∀ (t : Ty) (o : Order) (s : Bool), Zeros (wire e t o s (blank e t))
  | .bool, o, s => by simp [blank, Ty.zero, wire, Zeros]
  | .borshEnum, o, s | .uint _ _, o, s | .f32, o, s | .f64, o, s => by
    simp only [blank, Ty.zero, wire]; exact fixed_zero _ _
  | .int w _, o, s => by
    simp only [blank, Ty.zero, wire]
    have : twos w.bits 0 = 0 := by simp [twos]
    rw [this]; exact fixed_zero _ _
  | .str, o, s => by simp only [blank, Ty.zero, wire, List.append_nil]; exact strPrefix_zero e
  | .lib l, o, s => by
    have := lib_blank (e := e) l o
    simpa only [wire] using this
  | .ptr t, o, s => by
    simp only [blank, wire, Option.getD_some]
    split
    · exact blank_wire t .le false
    · exact blank_wire t o s
  | .slice t, o, s => by
    simp only [blank]
    have : ∀ xs, xs.getD [] = [] → Zeros (wire e (.slice t) o s (.seq xs)) := by
      intro xs h
      simp only [wire, h, List.flatMap_nil, List.append_nil, List.length_nil]
      split
      · exact Zeros.nil
      · exact lenPrefix_zero e
    split <;> exact this _ rfl
  | .array n t, o, s => by
    simp only [blank, wire]
    refine Zeros.seq ?_ n
    cases h : t.uintKind with
    | some w => simp only []; rw [uintKind_blank h]; exact fixed_zero .le w.bytes
    | none => exact blank_wire t .le false
  | .map k t, o, s => by
    simp only [blank, Ty.zero, wire, Option.getD_none, List.length_nil]
    have : entries e k [] = [] := by simp [entries, ascending]
    rw [this, List.flatMap_nil, List.append_nil]
    exact lenPrefix_zero e
  | .struct fs, o, s => by
    by_cases h : e = .borsh ∧ fs.isEnum = true
    · simp only [blank, if_pos h, wire]
      cases fs with
      | nil => simp only [blankEnum]; exact Zeros.nil
      | cons m t fs =>
        simp only [blankEnum, wireNth]
        exact (fixed_zero _ _).append (blank_first fs)
    · simp only [blank, if_neg h, wire]
      exact blank_fields fs []
  | .iface, o, s | .plainInt, o, s | .plainUint, o, s | .other, o, s => by simp [blank, Ty.zero, wire, Zeros]
theorem blank_fields : ∀ (fs : Fields) (names : List Bytes), Zeros (wireFields e fs names (blankFields e fs))
  | .nil, _ => by simp [wireFields, Zeros]
  | .cons m t fs, names => by
    simp only [blankFields, wireFields]
    by_cases hk : m.tag.skip = true
    · rw [if_pos hk]; exact blank_fields fs names
    · rw [if_neg hk]
      by_cases hx : m.exported = true
      · rw [if_pos hx]
        refine Zeros.append ?_ (blank_fields fs _)
        by_cases ho : m.tag.option = true
        · rw [if_pos (.inr (.inr (.inl ho)))]
          simp only [fieldWire, ho, isZero_zero, and_self, if_true]
          exact flag_zero e
        · by_cases hc : e = .borsh ∧ m.tag.coption = true
          · rw [if_pos (.inr (.inr (.inr hc)))]
            simp only [fieldWire, ho, isZero_zero, false_and, if_pos hc, if_false, if_true, List.nil_append, Bool.false_eq_true]
            exact cflag_zero
          · rw [if_neg (by simp only [hk, hx, ho, hc, or_false, Bool.true_eq_false, not_false_iff, Bool.false_eq_true])]
            simp only [fieldWire, ho, if_neg hc, false_and, if_false, List.nil_append, Bool.false_eq_true]
            exact blank_wire t m.tag.order _
      · rw [if_neg hx]; exact blank_fields fs _
theorem blank_first : ∀ (fs : Fields), Zeros (wireNth e fs 0 (blankFirst e fs))
  | .nil => by simp [wireNth, Zeros]
  | .cons m t fs => by
    simp only [blankFirst, wireNth]
    exact blank_wire t .le false
end

mutual
theorem blank_copy : ∀ (t : Ty), copy e t (blank e t) = blank e t
  | .bool | .borshEnum | .uint _ _ | .int _ _ | .f32 | .f64 | .str | .iface | .plainInt | .plainUint | .other => by
    simp [blank, Ty.zero, copy]
  | .lib l => by cases l <;> simp [blank, Ty.zero, Lib.zero, copy, copyLib]
  | .ptr t => by simp only [blank, copy, Option.map_some, blank_copy t]
  | .slice t => by
    by_cases h : e = .borsh <;> simp [blank, copy, h]
  | .array n t => by
    simp only [blank, copy, List.map_replicate]
    cases h : t.uintKind with
    | some w => rfl
    | none => simp only []; rw [blank_copy t]
  | .map k t => by simp [blank, Ty.zero, copy]
  | .struct fs => by
    by_cases h : e = .borsh ∧ fs.isEnum = true
    · simp only [blank, if_pos h, copy]
      cases fs with
      | nil => simp [Fields.isEnum] at h
      | cons m t fs =>
        simp only [blankEnum, copyNth, List.tail_cons]
        rw [copy_first fs]
    · simp only [blank, if_neg h, copy]
      rw [copy_fields_blank fs]
theorem copy_fields_blank : ∀ (fs : Fields), copyFields e fs (blankFields e fs) = blankFields e fs
  | .nil => by simp [copyFields, blankFields]
  | .cons m t fs => by
    simp only [blankFields, copyFields]
    rw [copy_fields_blank fs]
    congr 1
    by_cases h : m.tag.skip = true ∨ m.exported = false ∨ m.tag.option = true ∨ (e = .borsh ∧ m.tag.coption = true)
    · rw [if_pos h]
      rw [if_pos]
      rcases h with h | h | h
      · exact .inl h
      · exact .inr (.inl h)
      · exact .inr (.inr ⟨isZero_zero t, h⟩)
    · rw [if_neg h, if_neg, blank_copy t]
      rintro (h' | h' | h')
      · exact h (.inl h')
      · exact h (.inr (.inl h'))
      · exact h (.inr (.inr h'.2))
theorem copy_first : ∀ (fs : Fields), copyNth e fs 0 (blankFirst e fs) = blankFirst e fs
  | .nil => by simp [copyNth, blankFirst]
  | .cons m t fs => by simp only [blankFirst, copyNth]; rw [blank_copy t]
end

mutual
theorem blank_zero : ∀ (t : Ty), Straight e t = true → blank e t = t.zero
  | .bool, _ | .borshEnum, _ | .uint _ _, _ | .int _ _, _ | .f32, _ | .f64, _ | .str, _ | .iface, _ | .plainInt, _ | .plainUint, _ | .other, _
  | .map _ _, _ => by simp [blank]
  | .lib l, h => by cases l <;> simp [blank, Straight] at h ⊢
  | .ptr t, h => by simp [Straight] at h
  | .slice t, h => by
    simp only [Straight, beq_iff_eq] at h
    simp [blank, Ty.zero, h]
  | .array n t, h => by
    simp only [Straight] at h
    simp only [blank, Ty.zero, blank_zero t h]
  | .struct fs, h => by
    simp only [Straight] at h
    simp only [blank, Ty.zero]
    by_cases hb : e = .borsh ∧ fs.isEnum = true
    · rw [if_pos hb] at h ⊢
      cases fs with
      | nil => simp [Fields.isEnum] at hb
      | cons m t fs =>
        simp only [StraightEnum] at h
        have ht : t = .borshEnum := by
          have := hb.2
          cases t <;> simp [Fields.isEnum] at this <;> rfl
        simp only [blankEnum, Fields.zeros, ht, Ty.zero]
        rw [first_zero fs h]
    · rw [if_neg hb] at h ⊢
      rw [fields_zero fs h]
theorem fields_zero : ∀ (fs : Fields), StraightFields e fs = true → blankFields e fs = fs.zeros
  | .nil, _ => by simp [blankFields, Fields.zeros]
  | .cons m t fs, h => by
    simp only [StraightFields, Bool.and_eq_true] at h
    simp only [blankFields, Fields.zeros]
    rw [fields_zero fs h.2]
    congr 1
    split
    · rfl
    · rename_i hn
      refine blank_zero t ?_
      have := h.1
      simp only [Bool.or_eq_true, Bool.not_eq_true', Bool.and_eq_true, beq_iff_eq] at this
      rcases this with (((h1 | h1) | h1) | h1) | h1
      · exact absurd (.inl h1) hn
      · exact absurd (.inr (.inl h1)) hn
      · exact absurd (.inr (.inr (.inl h1))) hn
      · exact absurd (.inr (.inr (.inr h1))) hn
      · exact h1
theorem first_zero : ∀ (fs : Fields), StraightFirst e fs = true → blankFirst e fs = fs.zeros
  | .nil, _ => by simp [blankFirst, Fields.zeros]
  | .cons m t fs, h => by
    simp only [StraightFirst] at h
    simp only [blankFirst, Fields.zeros, blank_zero t h]
end

end Verif
