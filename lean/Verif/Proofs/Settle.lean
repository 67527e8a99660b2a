import Verif.Proofs.Restore
/-!
Values obtained by decoding into a fresh variable are normalised: reading back what the encoder writes for them changes
nothing that the encoder looks at.
-/
set_option linter.unusedSimpArgs false
namespace Verif
open Spec

theorem all_map_congr {f : Val → Val} {p : Val → Bool} (xs : List Val) (h : ∀ x ∈ xs, p (f x) = p x) :
    (xs.map f).all p = xs.all p := by
  induction xs with
  | nil => rfl
  | cons x xs ih =>
    simp only [List.map_cons, List.all_cons, h x (by simp), ih fun y hy => h y (by simp [hy])]

theorem flatMap_map_congr {α β γ : Type} {f : α → β} {g : β → List γ} {h : α → List γ} (xs : List α)
    (hx : ∀ x ∈ xs, g (f x) = h x) : (xs.map f).flatMap g = xs.flatMap h := by
  induction xs with
  | nil => rfl
  | cons x xs ih =>
    simp only [List.map_cons, List.flatMap_cons, hx x (by simp), ih fun y hy => hx y (by simp [hy])]

theorem entries_ne_nil {e : Encoding} {k : Ty} {m : List (Val × Val)} (h : m ≠ []) : entries e k m ≠ [] := by
  intro h0
  have := (entries_perm e k m).length_eq
  rw [h0] at this
  exact h (List.length_eq_zero_iff.mp this.symm)

theorem entries_settled {e : Encoding} {k : Ty} (f : Val → Val) (m : List (Val × Val)) :
    entries e k ((entries e k m).map fun x => (x.1, f x.2)) = (entries e k m).map fun x => (x.1, f x.2) := by
  unfold entries
  split
  · unfold ascending
    refine List.mergeSort_of_pairwise ?_
    rw [List.pairwise_map]
    exact ascending_sorted k m
  · rfl

mutual
theorem copy_settled {e : Encoding} : (t : Ty) → (s : Bool) → (v : Val) → (size : Option Int) → restorable e t s = true →
    Encodable e t size v → Norm e t v →
    t.isZero (copy e t v) = t.isZero v ∧ ∀ o sized, wire e t o sized (copy e t v) = wire e t o sized v
  | .bool, _, v, _, _, _, _ | .uint _ _, _, v, _, _, _, _ | .int _ _, _, v, _, _, _, _ | .borshEnum, _, v, _, _, _, _
  | .f32, _, v, _, _, _, _ | .f64, _, v, _, _, _, _ | .str, _, v, _, _, _, _ | .iface, _, v, _, _, _, _
  | .plainInt, _, v, _, _, _, _ | .plainUint, _, v, _, _, _, _ | .other, _, v, _, _, _, _ => by
    simp only [copy]; exact ⟨trivial, fun _ _ => trivial⟩
  | .lib l, _, v, _, _, _, h => by
    simp only [Norm] at h
    simp only [copy, h]; exact ⟨trivial, fun _ _ => trivial⟩
  | .ptr t, s, v, size, hc, he, h => by
    simp only [restorable, Bool.and_eq_true] at hc
    cases v <;> simp only [Encodable] at he
    rename_i p
    cases p with
    | none => simp only [Norm] at h
    | some x =>
      simp only [Norm] at h
      simp only [] at he
      obtain ⟨-, h2⟩ := copy_settled t s x _ hc.2 he h
      simp only [copy, Option.map_some, Ty.isZero, Option.isNone_some, wire, Option.getD_some, h2]
      exact ⟨trivial, fun _ _ => trivial⟩
  | .slice t, s, v, size, hc, he, h => by
    simp only [restorable, Bool.or_eq_true, Bool.and_eq_true] at hc
    cases v <;> simp only [Encodable] at he
    rename_i xs
    simp only [Norm] at h
    by_cases hb : e = .borsh ∧ (xs.getD []).isEmpty = true
    · have : xs = none := by
        have h1 := h.1
        rw [if_pos hb.1] at h1
        cases xs with
        | none => rfl
        | some xs =>
          have := hb.2
          simp only [Option.getD_some, List.isEmpty_iff] at this
          rw [this] at h1; exact absurd rfl h1
      subst this
      simp only [copy, if_pos hb]
      exact ⟨trivial, fun _ _ => trivial⟩
    · have : ∃ ys, xs = some ys := by
        cases xs with
        | some ys => exact ⟨ys, rfl⟩
        | none =>
          have h1 := h.1
          by_cases h0 : e = .borsh
          · exact absurd ⟨h0, rfl⟩ hb
          · rw [if_neg h0] at h1; exact absurd rfl h1
      obtain ⟨ys, rfl⟩ := this
      simp only [Option.getD_some] at hb
      simp only [copy, Option.getD_some, if_neg hb, Ty.isZero, wire, Option.getD_some, List.length_map]
      refine ⟨by simp, fun o sized => ?_⟩
      congr 1
      refine flatMap_map_congr ys fun x hx => ?_
      cases hk : t.uintKind with
      | some w => rfl
      | none =>
        rw [hk] at hc he h
        simp only [] at he
        exact (copy_settled t false x none (hc.resolve_left (by simp)).2 (he.2 x hx) (h.2 rfl x hx)).2 _ _
  | .array n t, s, v, size, hc, he, h => by
    simp only [restorable, Bool.or_eq_true] at hc
    cases v <;> simp only [Encodable] at he
    rename_i xs
    simp only [Norm] at h
    simp only [copy, Ty.isZero, wire]
    cases hk : t.uintKind with
    | some w => simp
    | none =>
      rw [hk] at hc he h
      simp only [] at he
      have hel := fun x hx => copy_settled t false x none (hc.resolve_left (by simp)) (he.2 x hx) (h rfl x hx)
      exact ⟨all_map_congr xs fun x hx => (hel x hx).1, fun _ _ => flatMap_map_congr xs fun x hx => (hel x hx).2 _ _⟩
  | .map k t, s, v, size, hc, he, h => by
    simp only [restorable, Bool.and_eq_true] at hc
    obtain ⟨⟨hpk, -⟩, hct⟩ := hc
    cases v <;> simp only [Encodable] at he
    rename_i m
    simp only [Norm] at h
    cases m with
    | none => simp [copy, Ty.isZero]
    | some m =>
      have hm : m ≠ [] := by simpa using h.1
      simp only [Option.getD_some] at h he
      have hem : ¬ (m.isEmpty = true) := by simpa using hm
      simp only [copy, Option.getD_some, if_neg hem, Ty.isZero, Option.isNone_some, wire, plainKey_copy hpk, List.length_map]
      refine ⟨trivial, fun o sized => ?_⟩
      rw [entries_settled (fun x => copy e t x), (entries_perm e k m).length_eq]
      congr 1
      refine flatMap_map_congr _ fun x hx => ?_
      have hx' := (entries_perm e k m).mem_iff.mp hx
      rw [(copy_settled t false x.2 none hct (he.2.2.2 x hx').2.2 (h.2 x hx')).2]
  | .struct fs, s, v, size, hc, he, h => by
    simp only [restorable] at hc
    cases v <;> simp only [Encodable] at he
    rename_i vs
    simp only [Norm] at h
    by_cases hb : e = .borsh ∧ fs.isEnum = true
    · rw [if_pos hb] at hc he h
      split at he
      · rename_i n vs
        simp only [] at h
        cases fs with
        | nil => simp only [NormTail] at h
        | cons m t0 fs =>
          simp only [NormTail] at h
          simp only [restorableVariants] at hc
          simp only [EncodableNth] at he
          obtain ⟨h1, h2⟩ := copyNth_settled fs n vs hc he.2 h
          simp only [copy, if_pos hb, Ty.isZero, wire, copyNth, List.tail_cons, Fields.allZero, wireNth, h1, h2]
          exact ⟨trivial, fun _ _ => trivial⟩
      · exact absurd he id
    · rw [if_neg hb] at hc he h
      simp only [copy, if_neg hb, Ty.isZero, wire]
      have := copyFields_settled fs [] [] vs hc he h
      exact ⟨this.1, fun _ _ => this.2 []⟩
termination_by structural t => t
theorem copyFields_settled {e : Encoding} : (fs : Fields) → (names : List Bytes) → (sm : List (Bytes × Int)) →
    (vs : List Val) → restorableFields e fs names = true → EncodableFields e fs sm vs → NormFields e fs vs →
    fs.allZero (copyFields e fs vs) = fs.allZero vs ∧
    ∀ names', wireFields e fs names' (copyFields e fs vs) = wireFields e fs names' vs
  | .nil, _, _, vs, _, _, h => by
    simp only [NormFields] at h
    simp [h, copyFields, wireFields, Fields.allZero]
  | .cons m t fs, _, _, [], _, _, h => by simp only [NormFields] at h
  | .cons m t fs, names, sm, v :: vs, hc, he, h => by
    simp only [restorableFields] at hc
    simp only [EncodableFields] at he
    simp only [NormFields] at h
    obtain ⟨h1, h2⟩ := h
    by_cases hk : m.tag.skip = true
    · rw [if_pos hk] at hc he
      rw [if_pos (Or.inl hk)] at h1
      obtain ⟨g1, g2⟩ := copyFields_settled fs names sm vs hc he h2
      simp only [copyFields, if_pos (Or.inl hk), Fields.allZero, wireFields, if_pos hk, g1, g2, h1]
      exact ⟨trivial, fun _ => trivial⟩
    rw [if_neg hk] at hc he
    simp only [Bool.and_eq_true] at hc
    obtain ⟨⟨-, hf⟩, hrest⟩ := hc
    cases ha : announce m t v sm with
    | none => rw [ha] at he; exact absurd he id
    | some sm' =>
      rw [ha] at he
      simp only [] at he
      obtain ⟨g1, g2⟩ := copyFields_settled fs _ sm' vs hrest he.2 h2
      by_cases hx : m.exported = true
      · have hcond : ¬ (m.tag.skip = true ∨ m.exported = false) := by simp [hk, hx]
        rw [if_pos hx] at hf
        rw [if_neg hcond] at h1
        simp only [Bool.and_eq_true] at hf
        by_cases hab : absent e m t v
        · have hz := isZero_zero t
          simp only [copyFields, if_pos (Or.inr (Or.inr hab) : m.tag.skip = true ∨ m.exported = false ∨ absent e m t v),
            Fields.allZero, wireFields, if_neg hk, if_pos hx, g1, g2, hz, hab.1]
          refine ⟨trivial, fun names' => ?_⟩
          congr 1
          unfold fieldWire
          simp only [hz, hab.1]
          by_cases hop : m.tag.option = true
          · rw [if_pos ⟨hop, trivial⟩, if_pos ⟨hop, trivial⟩]
          · have hbc := hab.2.resolve_left hop
            simp [hop, hbc]
        · have hcond' : ¬ (m.tag.skip = true ∨ m.exported = false ∨ absent e m t v) := by simp [hk, hx, hab]
          have hn : Norm e t v := h1.resolve_right fun h => hab ⟨by rw [h.2]; exact isZero_zero t, h.1⟩
          obtain ⟨c1, c2⟩ := copy_settled t _ v _ hf.2 (he.1 hx hab) hn
          simp only [copyFields, if_neg hcond', Fields.allZero, wireFields, if_neg hk, if_pos hx, g1, g2, c1, c2, fieldWire]
          exact ⟨trivial, fun _ => trivial⟩
      · have hx' : m.exported = false := by simpa using hx
        rw [if_pos (Or.inr hx')] at h1
        subst h1
        simp only [copyFields, if_pos (Or.inr (Or.inl hx') : m.tag.skip = true ∨ m.exported = false ∨ absent e m t t.zero),
          Fields.allZero, wireFields, if_neg hk, if_neg hx, g1, g2]
        exact ⟨trivial, fun _ => trivial⟩
termination_by structural fs => fs
theorem copyNth_settled {e : Encoding} : (fs : Fields) → (i : Nat) → (vs : List Val) → restorablePayloads e fs = true →
    EncodableNth e fs i vs → NormNth e fs i vs →
    fs.allZero (copyNth e fs i vs) = fs.allZero vs ∧ wireNth e fs i (copyNth e fs i vs) = wireNth e fs i vs
  | .nil, _, _, _, _, h => by simp only [NormNth] at h
  | .cons m t fs, _, [], _, _, h => by simp only [NormNth] at h
  | .cons m t fs, 0, v :: vs, hc, he, h => by
    simp only [restorablePayloads, Bool.and_eq_true] at hc
    simp only [EncodableNth] at he
    simp only [NormNth] at h
    obtain ⟨g1, g2⟩ := copy_settled t false v none hc.1.2 he.2 h.1
    simp only [copyNth, Fields.allZero, wireNth, g1, g2, h.2]
    exact ⟨trivial, trivial⟩
  | .cons m t fs, i + 1, v :: vs, hc, he, h => by
    simp only [restorablePayloads, Bool.and_eq_true] at hc
    simp only [EncodableNth] at he
    simp only [NormNth] at h
    obtain ⟨g1, g2⟩ := copyNth_settled fs i vs hc.2 he h.2
    simp only [copyNth, Fields.allZero, wireNth, g1, g2, h.1]
    exact ⟨trivial, trivial⟩
termination_by structural fs => fs
end

end Verif
