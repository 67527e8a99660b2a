import Verif.Model.DecodeReflect
/-! # Go's `==` on map keys is symmetric and transitive -/
namespace Verif

theorem plainEq_iff {x y : Val} (h : x.plainEq y = true) : x = y := by
  cases x <;> cases y <;> simp only [Val.plainEq, Bool.false_eq_true] at h <;>
    first
    | (rw [eq_of_beq h]; done)
    | (simp only [Bool.and_eq_true, beq_iff_eq] at h; obtain ⟨⟨rfl, rfl⟩, rfl⟩ := h; rfl)
    | (rename_i p q; cases p <;> cases q <;> simp_all [Val.plainEq]; done)
    | rfl

theorem floatEq_trans {w : Nat} {f : Nat → Bool} {x y z : Nat} (h1 : floatEq w f x y = true) (h2 : floatEq w f y z = true) :
    floatEq w f x z = true := by
  simp only [floatEq, Bool.and_eq_true, beq_iff_eq] at h1 h2 ⊢
  exact ⟨⟨h1.1.1, h2.1.2⟩, h1.2.trans h2.2⟩

theorem floatEq_comm {w : Nat} {f : Nat → Bool} {x y : Nat} (h1 : floatEq w f x y = true) : floatEq w f y x = true := by
  simp only [floatEq, Bool.and_eq_true, beq_iff_eq] at h1 ⊢
  exact ⟨⟨h1.1.2, h1.1.1⟩, h1.2.symm⟩

theorem f32_keyEq {x y : Val} (h : Ty.f32.keyEq x y = true) :
    x = y ∨ ∃ a b, x = .float a ∧ y = .float b ∧ floatEq 32 isNaN32 a b = true := by
  cases x <;> cases y <;> simp only [Ty.keyEq] at h <;>
    first | exact .inl (plainEq_iff h) | exact .inr ⟨_, _, rfl, rfl, h⟩

theorem f64_keyEq {x y : Val} (h : Ty.f64.keyEq x y = true) :
    x = y ∨ ∃ a b, x = .float a ∧ y = .float b ∧ floatEq 64 isNaN64 a b = true := by
  cases x <;> cases y <;> simp only [Ty.keyEq] at h <;>
    first | exact .inl (plainEq_iff h) | exact .inr ⟨_, _, rfl, rfl, h⟩

theorem lib_keyEq {l : Lib} {x y : Val} (h : l.keyEq x y = true) :
    x = y ∨ (l = .jsonFloat64 ∧ ∃ a b, x = .float a ∧ y = .float b ∧ floatEq 64 isNaN64 a b = true) := by
  unfold Lib.keyEq at h
  split at h
  · exact .inr ⟨rfl, _, _, rfl, rfl, h⟩
  · exact .inl rfl
  · exact .inl (plainEq_iff h)

theorem zip_all_trans {p : Val → Val → Bool} : ∀ {xs ys zs : List Val}, xs.length = ys.length → ys.length = zs.length →
    (∀ x ∈ xs, ∀ y z, p x y = true → p y z = true → p x z = true) →
    (xs.zip ys).all (fun q => p q.1 q.2) = true → (ys.zip zs).all (fun q => p q.1 q.2) = true →
    (xs.zip zs).all (fun q => p q.1 q.2) = true
  | [], _, _, _, _, _, _, _ => by simp
  | x :: xs, [], _, h, _, _, _, _ => by simp at h
  | x :: xs, y :: ys, [], _, h, _, _, _ => by simp at h
  | x :: xs, y :: ys, z :: zs, h1, h2, hp, ha, hb => by
    simp only [List.zip_cons_cons, List.all_cons, Bool.and_eq_true, List.length_cons, Nat.add_right_cancel_iff] at *
    exact ⟨hp x (by simp) y z ha.1 hb.1,
      zip_all_trans h1 h2 (fun x hx y z => hp x (by simp [hx]) y z) ha.2 hb.2⟩

mutual
theorem keyEq_trans : (t : Ty) → {x y z : Val} → t.keyEq x y = true → t.keyEq y z = true → t.keyEq x z = true
  | .f32, x, y, z, h1, h2 => by
    rcases f32_keyEq h1 with rfl | ⟨a, b, rfl, rfl, h3⟩
    · exact h2
    · rcases f32_keyEq h2 with rfl | ⟨a', b', h5, rfl, h4⟩
      · exact h1
      · cases h5
        simp only [Ty.keyEq]
        exact floatEq_trans h3 h4
  | .f64, x, y, z, h1, h2 => by
    rcases f64_keyEq h1 with rfl | ⟨a, b, rfl, rfl, h3⟩
    · exact h2
    · rcases f64_keyEq h2 with rfl | ⟨a', b', h5, rfl, h4⟩
      · exact h1
      · cases h5
        simp only [Ty.keyEq]
        exact floatEq_trans h3 h4
  | .lib l, x, y, z, h1, h2 => by
    simp only [Ty.keyEq] at h1 h2 ⊢
    rcases lib_keyEq h1 with rfl | ⟨rfl, a, b, rfl, rfl, h3⟩
    · exact h2
    · rcases lib_keyEq h2 with rfl | ⟨-, a', b', h5, rfl, h4⟩
      · exact h1
      · cases h5
        simp only [Lib.keyEq]
        exact floatEq_trans h3 h4
  | .array n t, x, y, z, h1, h2 => by
    cases x <;> cases y <;> simp only [Ty.keyEq] at h1 <;> first | (rw [plainEq_iff h1]; exact h2) | skip
    rename_i xs ys
    cases z <;> simp only [Ty.keyEq, Val.plainEq, Bool.false_eq_true] at h2
    simp only [Ty.keyEq, Bool.and_eq_true, beq_iff_eq] at h1 h2 ⊢
    exact ⟨h1.1.trans h2.1, zip_all_trans h1.1 h2.1 (fun x hx y z a b => keyEq_trans t a b) h1.2 h2.2⟩
  | .struct fs, x, y, z, h1, h2 => by
    cases x <;> cases y <;> simp only [Ty.keyEq] at h1 <;> first | (rw [plainEq_iff h1]; exact h2) | skip
    rename_i xs ys
    cases z <;> simp only [Ty.keyEq, Val.plainEq, Bool.false_eq_true] at h2
    simp only [Ty.keyEq]
    exact keysEq_trans fs h1 h2
  | .bool, x, y, z, h1, h2 | .uint .., x, y, z, h1, h2 | .int .., x, y, z, h1, h2 | .borshEnum, x, y, z, h1, h2
  | .str, x, y, z, h1, h2 | .ptr _, x, y, z, h1, h2 | .slice _, x, y, z, h1, h2 | .map _ _, x, y, z, h1, h2
  | .iface, x, y, z, h1, h2 | .plainInt, x, y, z, h1, h2 | .plainUint, x, y, z, h1, h2 | .other, x, y, z, h1, h2 => by
    simp only [Ty.keyEq] at h1
    rw [plainEq_iff h1]; exact h2
theorem keysEq_trans : (fs : Fields) → {xs ys zs : List Val} → fs.keysEq xs ys = true → fs.keysEq ys zs = true → fs.keysEq xs zs = true
  | .nil, xs, ys, zs, h1, h2 => by
    cases xs <;> cases ys <;> simp only [Fields.keysEq, Bool.false_eq_true] at h1
    exact h2
  | .cons m t fs, xs, ys, zs, h1, h2 => by
    cases xs <;> cases ys <;> simp only [Fields.keysEq, Bool.false_eq_true, Bool.and_eq_true] at h1
    · exact h2
    · cases zs <;> simp only [Fields.keysEq, Bool.false_eq_true, Bool.and_eq_true] at h2 ⊢
      exact ⟨keyEq_trans t h1.1 h2.1, keysEq_trans fs h1.2 h2.2⟩
end

theorem zip_all_comm {p : Val → Val → Bool} : ∀ {xs ys : List Val}, xs.length = ys.length →
    (∀ x ∈ xs, ∀ y, p x y = true → p y x = true) →
    (xs.zip ys).all (fun q => p q.1 q.2) = true → (ys.zip xs).all (fun q => p q.1 q.2) = true
  | [], _, _, _, _ => by simp
  | x :: xs, [], h, _, _ => by simp at h
  | x :: xs, y :: ys, h1, hp, ha => by
    simp only [List.zip_cons_cons, List.all_cons, Bool.and_eq_true, List.length_cons, Nat.add_right_cancel_iff] at *
    exact ⟨hp x (by simp) y ha.1, zip_all_comm h1 (fun x hx y => hp x (by simp [hx]) y) ha.2⟩

mutual
theorem keyEq_comm : (t : Ty) → {x y : Val} → t.keyEq x y = true → t.keyEq y x = true
  | .f32, x, y, h1 => by
    rcases f32_keyEq h1 with rfl | ⟨a, b, rfl, rfl, h3⟩
    · exact h1
    · simp only [Ty.keyEq]; exact floatEq_comm h3
  | .f64, x, y, h1 => by
    rcases f64_keyEq h1 with rfl | ⟨a, b, rfl, rfl, h3⟩
    · exact h1
    · simp only [Ty.keyEq]; exact floatEq_comm h3
  | .lib l, x, y, h1 => by
    simp only [Ty.keyEq] at h1 ⊢
    rcases lib_keyEq h1 with rfl | ⟨rfl, a, b, rfl, rfl, h3⟩
    · exact h1
    · simp only [Lib.keyEq]; exact floatEq_comm h3
  | .array n t, x, y, h1 => by
    have h0 := h1
    cases x <;> cases y <;> simp only [Ty.keyEq] at h1 <;> first | (have h := plainEq_iff h1; rw [h] at h0 ⊢; exact h0) | skip
    simp only [Ty.keyEq, Bool.and_eq_true, beq_iff_eq] at h1 ⊢
    exact ⟨h1.1.symm, zip_all_comm h1.1 (fun x hx y a => keyEq_comm t a) h1.2⟩
  | .struct fs, x, y, h1 => by
    have h0 := h1
    cases x <;> cases y <;> simp only [Ty.keyEq] at h1 <;> first | (have h := plainEq_iff h1; rw [h] at h0 ⊢; exact h0) | skip
    simp only [Ty.keyEq]
    exact keysEq_comm fs h1
  | .bool, x, y, h1 | .uint .., x, y, h1 | .int .., x, y, h1 | .borshEnum, x, y, h1
  | .str, x, y, h1 | .ptr _, x, y, h1 | .slice _, x, y, h1 | .map _ _, x, y, h1
  | .iface, x, y, h1 | .plainInt, x, y, h1 | .plainUint, x, y, h1 | .other, x, y, h1 => by
    simp only [Ty.keyEq] at h1 ⊢
    have h := plainEq_iff h1
    rw [h] at h1 ⊢; exact h1
theorem keysEq_comm : (fs : Fields) → {xs ys : List Val} → fs.keysEq xs ys = true → fs.keysEq ys xs = true
  | .nil, xs, ys, h1 => by
    cases xs <;> cases ys <;> simp only [Fields.keysEq, Bool.false_eq_true] at h1 ⊢
  | .cons m t fs, xs, ys, h1 => by
    cases xs <;> cases ys <;> simp only [Fields.keysEq, Bool.false_eq_true, Bool.and_eq_true] at h1 ⊢
    exact ⟨keyEq_comm t h1.1, keysEq_comm fs h1.2⟩
end

end Verif
