import Verif.Proofs.Append
import Verif.Proofs.Parts
/-! A struct type with more fields at the end. -/
set_option linter.unusedSimpArgs false
namespace Verif
open Spec

/-- `m'` does what `m` does and, where `m` succeeds, goes on with one of the continuations `C`. -/
def GoesOn {σ α β : Type} (C : α → M σ β → Prop) (m : M σ α) (m' : M σ β) : Prop :=
  ∀ s, (∃ x s1, m s = (.err x, s1) ∧ m' s = (.err x, s1)) ∨ (∃ s1, m s = (.panic, s1) ∧ m' s = (.panic, s1)) ∨
    ∃ a s1 k, C a k ∧ m s = (.ok a, s1) ∧ m' s = k s1

theorem GoesOn.bind {σ α β γ : Type} {C : α → M σ β → Prop} {r : M σ γ} {f : γ → M σ α} {f' : γ → M σ β}
    (h : ∀ a, GoesOn C (f a) (f' a)) : GoesOn C (r >>= f) (r >>= f') := by
  intro s
  cases hm : r s with
  | mk res s1 =>
    cases res with
    | err x => exact .inl ⟨x, s1, M.bind_err hm, M.bind_err hm⟩
    | panic => exact .inr (.inl ⟨s1, M.bind_panic hm, M.bind_panic hm⟩)
    | ok a => rw [M.bind_ok hm, M.bind_ok hm]; exact h a s1

theorem GoesOn.ite {σ α β : Type} {C : α → M σ β → Prop} {c : Prop} [Decidable c] {a b : M σ α} {a' b' : M σ β}
    (h1 : c → GoesOn C a a') (h2 : ¬ c → GoesOn C b b') : GoesOn C (if c then a else b) (if c then a' else b') := by
  by_cases h : c
  · rw [if_pos h, if_pos h]; exact h1 h
  · rw [if_neg h, if_neg h]; exact h2 h

theorem GoesOn.panic {σ α β : Type} {C : α → M σ β → Prop} : GoesOn C M.panic M.panic :=
  fun s => .inr (.inl ⟨s, rfl, rfl⟩)

theorem GoesOn.now {σ α β : Type} {C : α → M σ β → Prop} (a : α) (k : M σ β) (h : C a k) : GoesOn C (pure a) k :=
  fun s => .inr (.inr ⟨a, s, k, h, rfl, rfl⟩)

/-! ### Encoding -/

/-- The added fields come next, with the sizes announced so far. -/
def EncRest (e : Encoding) (gs : Fields) (ws : List Val) (_ : Unit) (k : EM Unit) : Prop := ∃ sm, k = encFields e gs sm ws

theorem encFields_goes {e : Encoding} (gs : Fields) (ws : List Val) : (fs : Fields) → (sm : List (Bytes × Int)) → (vs : List Val) →
    vs.length = fs.length → GoesOn (EncRest e gs ws) (encFields e fs sm vs) (encFields e (fs.append gs) sm (vs ++ ws))
  | .nil, sm, vs, hl => by
    have : vs = [] := List.length_eq_zero_iff.mp (by simpa [Fields.length] using hl)
    subst this
    simp only [encFields, Fields.append, List.nil_append]
    exact .now () _ ⟨sm, rfl⟩
  | .cons _ _ _, _, [], hl => by simp [Fields.length] at hl
  | .cons m t fs, sm, v :: vs, hl => by
    have hl' : vs.length = fs.length := by simpa [Fields.length] using hl
    simp only [encFields, Fields.append, List.cons_append]
    refine .ite (fun _ => encFields_goes gs ws fs sm vs hl') fun _ => .bind fun sm' => .ite (fun _ => .bind fun _ => .bind fun more => ?_)
      fun _ => encFields_goes gs ws fs sm' vs hl'
    exact .ite (fun _ => .bind fun _ => encFields_goes gs ws fs sm' vs hl') fun _ => encFields_goes gs ws fs sm' vs hl'

/-! ### Decoding -/

/-- The added fields come next. -/
def DecRest (e : Encoding) (gs : Fields) (ws xs : List Val) (k : DM (List Val)) : Prop :=
  ∃ sm seen, k = decFields e gs sm seen ws >>= fun ys => pure (xs ++ ys)

theorem GoesOn.cons {e : Encoding} {gs : Fields} {ws : List Val} {r r' : DM (List Val)} (x : Val)
    (h : GoesOn (DecRest e gs ws) r r') :
    GoesOn (DecRest e gs ws) (r >>= fun xs => pure (x :: xs)) (r' >>= fun xs => pure (x :: xs)) := by
  intro s
  rcases h s with ⟨y, s1, h1, h2⟩ | ⟨s1, h1, h2⟩ | ⟨xs, s1, k, ⟨sm, seen, rfl⟩, h1, h2⟩
  · exact .inl ⟨y, s1, M.bind_err h1, M.bind_err h2⟩
  · exact .inr (.inl ⟨s1, M.bind_panic h1, M.bind_panic h2⟩)
  · refine .inr (.inr ⟨x :: xs, s1, _, ⟨sm, seen, rfl⟩, by rw [M.bind_ok h1]; rfl, ?_⟩)
    cases hg : decFields e gs sm seen ws s1 with
    | mk res s2 =>
      cases res with
      | err y => rw [M.bind_err hg] at h2; rw [M.bind_err h2, M.bind_err hg]
      | panic => rw [M.bind_panic hg] at h2; rw [M.bind_panic h2, M.bind_panic hg]
      | ok ys =>
        rw [M.bind_ok hg] at h2
        rw [M.bind_ok h2, M.bind_ok hg]
        rfl

theorem decFields_goes {e : Encoding} (gs : Fields) (ws : List Val) : (fs : Fields) → (sm : List (Bytes × Int)) → (seen : Bool) →
    (vs : List Val) → vs.length = fs.length →
    GoesOn (DecRest e gs ws) (decFields e fs sm seen vs) (decFields e (fs.append gs) sm seen (vs ++ ws))
  | .nil, sm, seen, vs, hl => by
    have : vs = [] := List.length_eq_zero_iff.mp (by simpa [Fields.length] using hl)
    subst this
    simp only [decFields, Fields.append, List.nil_append]
    refine .now [] _ ⟨sm, seen, ?_⟩
    funext d
    cases hg : decFields e gs sm seen ws d with
    | mk res s2 => cases res with
      | err y => rw [M.bind_err hg]
      | panic => rw [M.bind_panic hg]
      | ok ys => rw [M.bind_ok hg]; rfl
  | .cons _ _ _, _, _, [], hl => by simp [Fields.length] at hl
  | .cons m t fs, sm, seen, v :: vs, hl => by
    have hl' : vs.length = fs.length := by simpa [Fields.length] using hl
    simp only [decFields, Fields.append, List.cons_append]
    refine .ite (fun _ => .cons _ (decFields_goes gs ws fs sm seen vs hl')) fun _ => .ite (fun _ => .panic) fun _ => .bind fun b =>
      .ite (fun _ => .cons _ (decFields_goes gs ws fs sm _ vs hl')) fun _ => ?_
    split
    · exact .bind fun x => .cons _ (decFields_goes gs ws fs sm _ vs hl')
    · exact .bind fun x => .bind fun sm' => .cons _ (decFields_goes gs ws fs sm' _ vs hl')

end Verif
