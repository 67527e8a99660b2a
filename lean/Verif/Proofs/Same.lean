import Verif.Proofs.DecodeWire
/-!
What the decoder gives back (`Spec.copy`) is the same Go value (`Spec.Same`).
-/
set_option linter.unusedSimpArgs false
namespace Verif
open Spec

mutual
theorem isZero_zero : (t : Ty) → t.isZero t.zero = true
  | .bool | .uint _ _ | .int _ _ | .borshEnum | .f32 | .f64 | .str | .ptr _ | .slice _ | .map _ _ | .iface
  | .plainInt | .plainUint | .other => by simp [Ty.zero, Ty.isZero, isZeroFloat]
  | .lib l => by cases l <;> simp [Ty.zero, Ty.isZero, Lib.zero, Lib.isZero, isZeroFloat]
  | .array n t => by simp [Ty.zero, Ty.isZero, isZero_zero t]
  | .struct fs => by simp [Ty.zero, Ty.isZero, allZero_zeros fs]
termination_by structural t => t
theorem allZero_zeros : (fs : Fields) → fs.allZero fs.zeros = true
  | .nil => by simp [Fields.allZero]
  | .cons _ t fs => by simp [Fields.allZero, Fields.zeros, isZero_zero t, allZero_zeros fs]
termination_by structural fs => fs
end

theorem all2_map {α β : Type} {r : α → β → Prop} {f : α → β} : (xs : List α) → (∀ x ∈ xs, r x (f x)) →
    All2 r xs (xs.map f)
  | [], _ => trivial
  | x :: xs, h => ⟨h x (by simp), all2_map xs fun y hy => h y (by simp [hy])⟩

theorem sameLib_copy {e : Encoding} {l : Lib} {v : Val} (h : LibEnc e l v) : SameLib v (copyLib v) := by
  cases l <;> cases v <;> simp only [LibEnc] at h <;> simp [SameLib, copyLib]

theorem nth_cons {e : Encoding} {fs : Fields} {n : Nat} {v : Val} {vs ws : List Val} (w : Val)
    (h : SameNth e fs (n + 1) (v :: vs) ws) : SameNth e fs (n + 1) (v :: vs) (w :: ws.tail) := by
  cases fs <;> cases ws <;> simp_all [SameNth]

mutual
theorem same_copy {e : Encoding} : (t : Ty) → (size : Option Int) → (v : Val) →
    Encodable e t size v → Returns e t size.isSome v → Same e t v (copy e t v)
  | .bool, _, v, h, _ => by cases v <;> simp only [Encodable] at h <;> simp [Same, copy]
  | .uint _ _, _, v, h, _ => by cases v <;> simp only [Encodable] at h <;> simp [Same, copy]
  | .int _ _, _, v, h, _ => by cases v <;> simp only [Encodable] at h <;> simp [Same, copy]
  | .borshEnum, _, v, h, _ => by cases v <;> simp only [Encodable] at h <;> simp [Same, copy]
  | .f32, _, v, h, _ => by cases v <;> simp only [Encodable] at h <;> simp [Same, copy]
  | .f64, _, v, h, _ => by cases v <;> simp only [Encodable] at h <;> simp [Same, copy]
  | .str, _, v, h, _ => by cases v <;> simp only [Encodable] at h <;> simp [Same, copy]
  | .iface, _, v, h, _ => by cases v <;> simp only [Encodable] at h <;> simp [Same, copy]
  | .plainInt, _, v, h, _ => by simp [Encodable] at h
  | .plainUint, _, v, h, _ => by simp [Encodable] at h
  | .other, _, v, h, _ => by simp [Encodable] at h
  | .lib l, _, v, h, _ => by
    simp only [Encodable] at h
    simp only [Same, copy]
    exact sameLib_copy h
  | .ptr t, size, v, h, hr => by
    cases v <;> simp only [Encodable] at h
    rename_i p
    simp only [Returns] at hr
    cases p with
    | none => exact hr.2.elim
    | some x =>
      simp only [copy, Same, Option.map_some]
      refine same_copy t size x ?_ hr.2
      simp only [] at h
      by_cases hb : e = .borsh
      · have := hr.1 hb
        rw [if_pos hb] at h
        cases size with
        | none => exact h
        | some _ => cases this
      · rw [if_neg hb] at h; exact h
  | .slice t, _, v, h, hr => by
    cases v <;> simp only [Encodable] at h
    rename_i xs
    simp only [Returns] at hr
    simp only [copy]
    by_cases hz : e = .borsh ∧ (xs.getD []).isEmpty = true
    · rw [if_pos hz]
      have : xs.getD [] = [] := List.isEmpty_iff.mp hz.2
      simp only [Same, this]
      exact trivial
    · rw [if_neg hz]
      simp only [Same, Option.getD_some]
      cases hu : t.uintKind with
      | some w => exact all2_map _ fun x _ => rfl
      | none =>
        simp only [hu] at h hr ⊢
        exact all2_map _ fun x hx => same_copy t none x (h.2 x hx) (hr.2.2 x hx)
  | .array n t, _, v, h, hr => by
    cases v <;> simp only [Encodable] at h
    rename_i xs
    simp only [Returns] at hr
    simp only [copy, Same]
    cases hu : t.uintKind with
    | some w => exact all2_map _ fun x _ => rfl
    | none =>
      simp only [hu] at h hr ⊢
      exact all2_map _ fun x hx => same_copy t none x (h.2 x hx) (hr x hx)
  | .map k t, _, v, h, hr => by
    cases v <;> simp only [Encodable] at h
    rename_i m
    simp only [Returns] at hr
    simp only [copy]
    have hp := entries_perm e k (m.getD [])
    by_cases hz : (m.getD []).isEmpty = true
    · rw [if_pos hz]
      have : m.getD [] = [] := List.isEmpty_iff.mp hz
      simp only [Same, this]
      exact ⟨[], List.Perm.refl _, trivial⟩
    · rw [if_neg hz]
      simp only [Same, Option.getD_some]
      refine ⟨entries e k (m.getD []), hp, all2_map _ fun x hx => ?_⟩
      have hm := hp.mem_iff.mp hx
      exact ⟨same_copy k none x.1 (h.2.2.2 x hm).2.1 (hr.2.2 x hm).1,
        same_copy t none x.2 (h.2.2.2 x hm).2.2 (hr.2.2 x hm).2⟩
  | .struct fs, _, v, h, hr => by
    cases v <;> simp only [Encodable] at h
    rename_i vs
    simp only [Returns] at hr
    simp only [copy]
    by_cases hc : e = .borsh ∧ fs.isEnum = true
    · rw [if_pos hc] at h hr ⊢
      split at h
      · rename_i n vs
        simp only [] at hr ⊢
        simp only [Same]
        rw [if_pos hc]
        exact ⟨trivial, nth_cons _ (same_nth fs (n + 1) _ h.2 hr)⟩
      · exact h.elim
    · rw [if_neg hc] at h hr ⊢
      simp only [Same]
      rw [if_neg hc]
      exact same_fields fs [] false vs h (by simpa using hr)
termination_by structural t => t
theorem same_fields {e : Encoding} : (fs : Fields) → (sm : List (Bytes × Int)) → (seen : Bool) → (vs : List Val) →
    EncodableFields e fs sm vs → ReturnsFields e fs (sm.map (·.1)) seen vs → SameFields e fs vs (copyFields e fs vs)
  | .nil, sm, seen, vs, h, _ => by
    simp only [EncodableFields] at h
    subst h
    simp [SameFields, copyFields]
  | .cons m t fs, sm, seen, [], h, _ => by simp [EncodableFields] at h
  | .cons m t fs, sm, seen, v :: vs, h, hr => by
    simp only [EncodableFields] at h
    simp only [ReturnsFields] at hr
    simp only [SameFields, copyFields]
    by_cases hsk : m.tag.skip = true
    · rw [if_pos hsk] at h hr
      rw [if_pos (Or.inl hsk), if_pos (Or.inl hsk)]
      exact ⟨rfl, same_fields fs sm seen vs h hr⟩
    · rw [if_neg hsk] at h hr
      obtain ⟨hseen, hfld, hrest⟩ := hr
      cases ha : announce m t v sm with
      | none => simp only [ha] at h
      | some sm' =>
        simp only [ha] at h
        obtain ⟨-, r2⟩ := recordSize_announce (σ := Dec) ha
        rw [r2] at hrest
        refine ⟨?_, same_fields fs sm' _ vs h.2 hrest⟩
        by_cases hx : m.exported = true
        · rw [if_pos hx] at hfld
          rw [if_neg (by simp [hsk, hx])]
          by_cases hab : absent e m t v
          · rw [if_pos hab, if_pos (Or.inr (Or.inr hab))]
            exact isZero_zero t
          · rw [if_neg hab, if_neg (by simp [hsk, hx, hab])]
            have hret := hfld.2.2.2.2.2 hab
            rw [r2, ← lookupSize_isSome] at hret
            exact same_copy t _ v (h.1 hx hab) hret
        · have hx' : m.exported = false := by simpa using hx
          rw [if_pos (Or.inr hx'), if_pos (Or.inr (Or.inl hx'))]
termination_by structural fs => fs
theorem same_nth {e : Encoding} : (fs : Fields) → (i : Nat) → (vs : List Val) →
    EncodableNth e fs i vs → ReturnsNth e fs i vs → SameNth e fs i vs (copyNth e fs i vs)
  | .nil, i, vs, h, hr => by simp [EncodableNth] at h
  | .cons _ t fs, 0, [], h, hr => by simp [EncodableNth] at h
  | .cons _ t fs, i + 1, [], h, hr => by simp [EncodableNth] at h
  | .cons _ t fs, 0, v :: vs, h, hr => by
    simp only [EncodableNth] at h
    simp only [ReturnsNth] at hr
    simp only [SameNth, copyNth]
    exact same_copy t none v h.2 hr
  | .cons _ t fs, i + 1, v :: vs, h, hr => by
    simp only [EncodableNth] at h
    simp only [ReturnsNth] at hr
    simp only [SameNth, copyNth]
    exact same_nth fs i vs h hr
termination_by structural fs => fs
end

end Verif
