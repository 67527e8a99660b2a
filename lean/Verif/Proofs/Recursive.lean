import Verif.Spec.Recursive
import Verif.Model.Interface
import Verif.Basic
/-! Cut types. -/
set_option linter.unusedSimpArgs false
namespace Verif
open Spec

/-- `w` runs into a cut or does the same as `w'`. -/
def Approx {σ α : Type} (w w' : M σ α) : Prop := ∀ s, (w s).1 = .err .unsupported ∨ w' s = w s

section
variable {σ α β : Type}

theorem Approx.same (w : M σ α) : Approx w w := fun _ => .inr rfl

theorem Approx.bind {w w' : M σ α} {f g : α → M σ β} (h : Approx w w') (hf : ∀ a, Approx (f a) (g a)) :
    Approx (w >>= f) (w' >>= g) := by
  intro s
  cases hw : w s with
  | mk r s' =>
    rcases h s with h | h
    · rw [hw] at h
      cases r with
      | ok a => cases h
      | err x => cases h; left; rw [M.bind_err hw]
      | panic => cases h
    · rw [hw] at h
      cases r with
      | ok a =>
        rw [M.bind_ok hw, M.bind_ok h]
        exact hf a s'
      | err x => right; rw [M.bind_err hw, M.bind_err h]
      | panic => right; rw [M.bind_panic hw, M.bind_panic h]

theorem Approx.ite {c : Prop} [Decidable c] {r s r' s' : M σ α} (h1 : c → Approx r r') (h2 : ¬ c → Approx s s') :
    Approx (if c then r else s) (if c then r' else s') := by
  by_cases h : c
  · rw [if_pos h, if_pos h]; exact h1 h
  · rw [if_neg h, if_neg h]; exact h2 h

theorem Approx.forIndex {f g : α → M σ Unit} (h : ∀ a, Approx (f a) (g a)) : ∀ (n : Nat) (xs : List α),
    Approx (forIndexM f n xs) (forIndexM g n xs)
  | 0, _ => Approx.same _
  | _ + 1, [] => Approx.same _
  | n + 1, x :: xs => (h x).bind fun _ => Approx.forIndex h n xs

theorem Approx.forEach {f g : α → M σ Unit} (h : ∀ a, Approx (f a) (g a)) : ∀ (xs : List α),
    Approx (forEachM f xs) (forEachM g xs)
  | [] => Approx.same _
  | x :: xs => (h x).bind fun _ => Approx.forEach h xs

theorem Approx.repeat {f g : M σ α} (h : Approx f g) : ∀ n, Approx (repeatM f n) (repeatM g n)
  | 0 => Approx.same _
  | n + 1 => h.bind fun _ => (Approx.repeat h n).bind fun _ => Approx.same _

theorem Approx.traverse {f g : α → M σ β} (h : ∀ a, Approx (f a) (g a)) : ∀ xs, Approx (traverseM f xs) (traverseM g xs)
  | [] => Approx.same _
  | x :: xs => (h x).bind fun _ => (Approx.traverse h xs).bind fun _ => Approx.same _

/-- The traversal of equal elements. -/
theorem Approx.replicate {f g : β → M σ α} {x y : β} (h : Approx (f x) (g y)) : ∀ n,
    Approx (traverseM f (List.replicate n x)) (traverseM g (List.replicate n y))
  | 0 => Approx.same _
  | n + 1 => h.bind fun _ => (Approx.replicate h n).bind fun _ => Approx.same _
end

/-! ### what cutting does not change -/

namespace Spec

theorem Cut.kind {t u : Ty} (h : Cut t u) : t.kind = u.kind := by
  cases h <;> rfl

theorem Cut.uintKind {t u : Ty} (h : Cut t u) : t.uintKind = u.uintKind := by
  unfold Ty.uintKind; rw [h.kind]

theorem Stump.uintKind {t u : Ty} (h : Stump t u) : t.uintKind = u.uintKind := by cases h <;> rfl
theorem Stump.asLib {t u : Ty} (h : Stump t u) : t.asLib = u.asLib := by cases h <;> rfl

theorem Cut.asLib {t u : Ty} (h : Cut t u) : t.asLib = u.asLib := by
  cases h <;> rfl

theorem Stump.baseLib {t u : Ty} (h : Stump t u) : t.baseLib = u.baseLib := by cases h <;> rfl
theorem Stump.absentBase_not {t u : Ty} (h : Stump t u) : t.directLib = u.directLib := by cases h <;> rfl

theorem Cut.baseLib : ∀ {t u : Ty}, Cut t u → t.baseLib = u.baseLib
  | .ptr t, u, h => by
    cases h with
    | same => rfl
    | ptr h => simp only [Ty.baseLib]; exact Cut.baseLib h
    | ptrOff h => simp only [Ty.baseLib]; exact Stump.baseLib h
  | .slice _, _, h | .array _ _, _, h | .map _ _, _, h | .struct _, _, h => by cases h <;> rfl
  | .bool, _, h | .uint _ _, _, h | .int _ _, _, h | .borshEnum, _, h | .f32, _, h | .f64, _, h | .str, _, h | .lib _, _, h
  | .iface, _, h | .plainInt, _, h | .plainUint, _, h | .other, _, h => by cases h; rfl

theorem Cut.directLib {t u : Ty} (h : Cut t u) : t.directLib = u.directLib := by
  cases h with
  | ptr h => cases h <;> rfl
  | ptrOff h => cases h <;> rfl
  | _ => rfl

theorem CutFields.same : ∀ fs, CutFields fs fs
  | .nil => .nil
  | .cons _ _ fs => .keep (CutFields.same fs)

theorem CutFields.isEnum {fs gs : Fields} (h : CutFields fs gs) : fs.isEnum = gs.isEnum := by
  cases h with
  | nil => rfl
  | @keep m t _ _ h => cases t <;> rfl
  | @cons m t _ _ _ _ ht h =>
    cases ht with
    | same => cases t <;> rfl
    | _ => rfl

theorem CutFields.length : ∀ {fs gs : Fields}, CutFields fs gs → fs.length = gs.length
  | .nil, _, h => by cases h; rfl
  | .cons _ _ fs, _, h => by
    cases h with
    | keep h => simp only [Fields.length, CutFields.length h]
    | cons _ _ h => simp only [Fields.length, CutFields.length h]

mutual
theorem Cut.zero : (t u : Ty) → Cut t u → t.zero = u.zero
  | .ptr t, _, h => by cases h <;> simp only [Ty.zero]
  | .slice t, _, h => by cases h <;> simp only [Ty.zero]
  | .map _ t, _, h => by cases h <;> simp only [Ty.zero]
  | .array n t, _, h => by
    cases h with
    | same => rfl
    | array h => simp only [Ty.zero, Cut.zero t _ h]
  | .struct fs, _, h => by
    cases h with
    | same => rfl
    | struct h => simp only [Ty.zero, CutFields.zeros fs _ h]
  | .bool, _, h | .uint _ _, _, h | .int _ _, _, h | .borshEnum, _, h | .f32, _, h | .f64, _, h | .str, _, h | .lib _, _, h
  | .iface, _, h | .plainInt, _, h | .plainUint, _, h | .other, _, h => by cases h; rfl
termination_by structural t => t
theorem CutFields.zeros : (fs gs : Fields) → CutFields fs gs → fs.zeros = gs.zeros
  | .nil, _, h => by cases h; rfl
  | .cons m t fs, _, h => by
    cases h with
    | keep h => simp only [Fields.zeros, CutFields.zeros fs _ h]
    | cons _ ht h => simp only [Fields.zeros, Cut.zero t _ ht, CutFields.zeros fs _ h]
termination_by structural fs => fs
end

mutual
theorem Cut.isZero : (t u : Ty) → Cut t u → ∀ v, t.isZero v = u.isZero v
  | .ptr t, _, h, v => by cases h <;> cases v <;> simp only [Ty.isZero]
  | .slice t, _, h, v => by cases h <;> cases v <;> simp only [Ty.isZero]
  | .map _ t, _, h, v => by cases h <;> cases v <;> simp only [Ty.isZero]
  | .array n t, _, h, v => by
    cases h with
    | same => rfl
    | array h => cases v <;> simp only [Ty.isZero, Cut.isZero t _ h]
  | .struct fs, _, h, v => by
    cases h with
    | same => rfl
    | struct h => cases v <;> simp only [Ty.isZero, CutFields.allZero fs _ h]
  | .bool, _, h, v | .uint _ _, _, h, v | .int _ _, _, h, v | .borshEnum, _, h, v | .f32, _, h, v | .f64, _, h, v | .str, _, h, v
  | .lib _, _, h, v | .iface, _, h, v | .plainInt, _, h, v | .plainUint, _, h, v | .other, _, h, v => by cases h; rfl
termination_by structural t => t
theorem CutFields.allZero : (fs gs : Fields) → CutFields fs gs → ∀ vs, fs.allZero vs = gs.allZero vs
  | .nil, _, h, vs => by cases h; rfl
  | .cons m t fs, _, h, vs => by
    cases h with
    | keep h => cases vs <;> simp only [Fields.allZero, CutFields.allZero fs _ h]
    | cons _ ht h => cases vs <;> simp only [Fields.allZero, Cut.isZero t _ ht, CutFields.allZero fs _ h]
termination_by structural fs => fs
end

/-! ### stumps have no encoding -/

theorem dead_enc (e : Encoding) (o : Opt) (v : Val) (vs : List Val) (s : Enc) :
    (encCore e dead o (.struct (v :: vs)) s).1 = .err .unsupported := by
  unfold dead
  simp only [encCore, encStruct, Fields.isEnum, encFields, recordSize, fieldOpt, encFlags]
  cases e <;> rfl

theorem Stump.enc {t u : Ty} (h : Stump t u) (e : Encoding) (o : Opt) (v : Val) :
    Approx (encCore e t o v) (encCore e u o v) := by
  intro s
  cases h with
  | struct m t fs =>
    cases v with
    | struct vs =>
      cases vs with
      | nil =>
        right
        unfold dead
        simp only [encCore, encStruct, encFields]
        by_cases h1 : e = .borsh ∧ (Fields.cons m t fs).isEnum = true
        · rw [if_pos h1, if_neg (by simp [Fields.isEnum])]
        · rw [if_neg h1, if_neg (by simp [Fields.isEnum])]
      | cons v vs => exact .inl (dead_enc e o v vs s)
    | _ => right; rfl
  | slice u => left; rfl
  | map k u => left; rfl

/-- A nil pointer in Borsh. -/
theorem Stump.zero {t u : Ty} (h : Stump t u) (e : Encoding) (o : Opt) (s : Enc) :
    (encCore e t o t.zero s).1 = .err .unsupported := by
  cases h with
  | struct m t fs => exact dead_enc e o .nil [] s
  | slice u => rfl
  | map k u => rfl

end Spec

theorem encFlags_cut {t u : Ty} (h : Cut t u) (e : Encoding) (o : Opt) (v : Val) : encFlags e u o v = encFlags e t o v := by
  unfold encFlags
  rw [h.isZero t u v]

theorem recordSize_cut {σ : Type} {t u : Ty} (h : Cut t u) (m : FieldMeta) (v : Val) (sm : List (Bytes × Int)) :
    (recordSize m u v sm : M σ _) = recordSize m t v sm := by
  unfold recordSize
  rw [h.kind]

theorem Spec.Stump.variant {t u : Ty} (h : Stump t u) (e : Encoding) (v : Val) : Approx (encVariant e t v) (encVariant e u v) := by
  cases h with
  | struct m t fs =>
    have := Stump.enc (.struct m t fs) e {} v
    cases v with
    | struct vs =>
      unfold dead at this ⊢
      simp only [encVariant]
      simp only [encCore] at this
      exact this
    | _ => exact Approx.same _
  | slice u => cases v <;> exact Approx.same _
  | map k u => cases v <;> exact Approx.same _

theorem encStruct_cut {e : Encoding} {fs gs : Fields} (h : CutFields fs gs) {vs : List Val} {a b : EM Unit} {f g : Nat → EM Unit}
    (ha : Approx a b) (hf : ∀ i, Approx (f i) (g i)) : Approx (encStruct e fs vs a f) (encStruct e gs vs b g) := by
  unfold encStruct
  rw [← h.isEnum, ← h.length]
  refine Approx.ite (fun _ => ?_) fun _ => ha
  split
  · exact (Approx.same _).bind fun _ => Approx.ite (fun _ => Approx.same _) fun _ => hf _
  · exact Approx.same _

mutual
theorem encCore_cut (e : Encoding) : (t u : Ty) → Cut t u → ∀ o v, Approx (encCore e t o v) (encCore e u o v)
  | .ptr t, _, h, o, v => by
    cases h with
    | same => exact Approx.same _
    | @ptr _ u h =>
      cases v with
      | ptr p =>
        simp only [encCore]
        rw [← h.asLib]
        cases ha : t.asLib with
        | some l => exact Approx.same _
        | none =>
          refine Approx.ite (fun _ => ?_) fun _ => (Approx.same _).bind fun _ => ?_
          · rw [← h.zero t u]
            exact (Approx.same _).bind fun _ => encCore_cut e t u h _ _
          · cases p with
            | none => exact Approx.same _
            | some x => exact encCore_cut e t u h _ _
      | _ => exact Approx.same _
    | @ptrOff _ u h =>
      cases v with
      | ptr p =>
        simp only [encCore]
        rw [← h.asLib]
        cases ha : t.asLib with
        | some l => exact Approx.same _
        | none =>
          refine Approx.ite (fun _ => (Approx.same _).bind fun _ => ?_) fun _ => (Approx.same _).bind fun _ => ?_
          · cases p with
            | none => exact fun s => .inl (h.zero e _ s)
            | some x => exact h.enc e _ x
          · cases p with
            | none => exact Approx.same _
            | some x => exact h.enc e _ x
      | _ => exact Approx.same _
  | .slice t, _, h, o, v => by
    have main : ∀ u : Ty, t.uintKind = u.uintKind → (∀ x, Approx (encCore e t {} x) (encCore e u {} x)) →
        Approx (encCore e (.slice t) o v) (encCore e (.slice u) o v) := by
      intro u hk hx
      cases v with
      | seq xs =>
        simp only [encCore]
        have body : ∀ l : Int, Approx (match t.uintKind with
            | some w => writeUints l w (xs.getD [])
            | none => forIndexM (fun x => do setCurE .le; encCore e t {} x) l.toNat (xs.getD []))
            (match u.uintKind with
            | some w => writeUints l w (xs.getD [])
            | none => forIndexM (fun x => do setCurE .le; encCore e u {} x) l.toNat (xs.getD [])) := by
          intro l
          rw [hk]
          cases u.uintKind with
          | some w => exact Approx.same _
          | none => exact Approx.forIndex (fun x => (Approx.same _).bind fun _ => hx x) _ _
        cases o.sizeOf with
        | some n => exact (Approx.same _).bind body
        | none => exact (Approx.same _).bind fun _ => (Approx.same _).bind body
      | _ => exact Approx.same _
    cases h with
    | same => exact Approx.same _
    | slice h => exact main _ h.uintKind fun x => encCore_cut e t _ h {} x
    | sliceOff h => exact main _ h.uintKind fun x => h.enc e {} x
  | .array n t, _, h, o, v => by
    cases h with
    | same => exact Approx.same _
    | @array _ _ u h =>
      cases v with
      | arr xs =>
        simp only [encCore]
        rw [h.uintKind]
        cases u.uintKind with
        | some w => exact Approx.same _
        | none => exact Approx.forIndex (fun x => (Approx.same _).bind fun _ => encCore_cut e t u h {} x) _ _
      | _ => exact Approx.same _
  | .map k t, _, h, o, v => by
    have main : ∀ u : Ty, (∀ x, Approx (encCore e t {} x) (encCore e u {} x)) →
        Approx (encCore e (.map k t) o v) (encCore e (.map k u) o v) := by
      intro u hx
      cases v with
      | map m =>
        simp only [encCore]
        refine (Approx.same _).bind fun m => (Approx.same _).bind fun _ => Approx.forEach (fun x => ?_) _
        refine (Approx.same _).bind fun _ => (Approx.same _).bind fun _ => Approx.ite (fun _ => ?_) fun _ => Approx.same _
        exact (Approx.same _).bind fun _ => hx x.2
      | _ => exact Approx.same _
    cases h with
    | same => exact Approx.same _
    | map h => exact main _ fun x => encCore_cut e t _ h {} x
    | mapOff h => exact main _ fun x => h.enc e {} x
  | .struct fs, _, h, o, v => by
    cases h with
    | same => exact Approx.same _
    | @struct _ gs h =>
      cases v with
      | struct vs =>
        simp only [encCore]
        exact encStruct_cut h (encFields_cut e fs gs h [] vs) fun i => encNth_cut e fs gs h i vs
      | _ => exact Approx.same _
  | .bool, _, h, _, _ | .uint _ _, _, h, _, _ | .int _ _, _, h, _, _ | .borshEnum, _, h, _, _ | .f32, _, h, _, _
  | .f64, _, h, _, _ | .str, _, h, _, _ | .lib _, _, h, _, _ | .iface, _, h, _, _ | .plainInt, _, h, _, _
  | .plainUint, _, h, _, _ | .other, _, h, _, _ => by cases h; exact Approx.same _
termination_by structural t => t
theorem encFields_cut (e : Encoding) : (fs gs : Fields) → CutFields fs gs → ∀ sm vs,
    Approx (encFields e fs sm vs) (encFields e gs sm vs)
  | .nil, _, h, _, _ => by cases h; exact Approx.same _
  | .cons m t fs, gs, h, sm, vs => by
    have both : ∃ u gs', gs = .cons m u gs' ∧ Cut t u ∧ CutFields fs gs' := by
      cases h with
      | keep h => exact ⟨_, _, rfl, .same _, h⟩
      | cons _ ht h => exact ⟨_, _, rfl, ht, h⟩
    obtain ⟨u, gs, rfl, ht, h⟩ := both
    · cases vs with
      | nil => simp only [encFields]; exact Approx.same _
      | cons v vs =>
        simp only [encFields]
        have ih := encFields_cut e fs gs h
        refine Approx.ite (fun _ => ih _ _) fun _ => ?_
        rw [recordSize_cut ht]
        refine (Approx.same _).bind fun sm => Approx.ite (fun _ => ?_) fun _ => ih _ _
        rw [encFlags_cut ht]
        refine (Approx.same _).bind fun _ => (Approx.same _).bind fun more => ?_
        exact Approx.ite (fun _ => (encCore_cut e t u ht _ _).bind fun _ => ih _ _) fun _ => ih _ _
termination_by structural fs => fs
theorem encNth_cut (e : Encoding) : (fs gs : Fields) → CutFields fs gs → ∀ i vs,
    Approx (encNth e fs i vs) (encNth e gs i vs)
  | .nil, _, h, _, _ => by cases h; exact Approx.same _
  | .cons m t fs, gs, h, i, vs => by
    have both : ∃ u gs', gs = .cons m u gs' ∧ Cut t u ∧ CutFields fs gs' := by
      cases h with
      | keep h => exact ⟨_, _, rfl, .same _, h⟩
      | cons _ ht h => exact ⟨_, _, rfl, ht, h⟩
    obtain ⟨u, gs, rfl, ht, h⟩ := both
    · cases vs with
      | nil => cases i <;> exact Approx.same _
      | cons v vs =>
        cases i with
        | zero => simp only [encNth]; exact encPayload_cut e t u ht v
        | succ i => simp only [encNth]; exact encNth_cut e fs gs h i vs
termination_by structural fs => fs
theorem encPayload_cut (e : Encoding) : (t u : Ty) → Cut t u → ∀ v, Approx (encPayload e t v) (encPayload e u v)
  | .ptr t, _, h, v => by
    cases h with
    | same => exact Approx.same _
    | ptr h =>
      cases v with
      | ptr p =>
        cases p with
        | none => exact Approx.same _
        | some x => simp only [encPayload]; exact encVariant_cut e t _ h x
      | _ => exact Approx.same _
    | ptrOff h =>
      cases v with
      | ptr p =>
        cases p with
        | none => exact Approx.same _
        | some x => simp only [encPayload]; exact h.variant e x
      | _ => exact Approx.same _
  | .struct fs, _, h, v => by
    cases h with
    | same => exact Approx.same _
    | @struct _ gs h =>
      cases v with
      | struct vs =>
        simp only [encPayload]
        exact encStruct_cut h (encFields_cut e fs gs h [] vs) fun i => encNth_cut e fs gs h i vs
      | _ => exact Approx.same _
  | .slice _, _, h, v | .array _ _, _, h, v | .map _ _, _, h, v => by
    cases h <;> simp only [encPayload, Ty.kind] <;> exact Approx.same _
  | .bool, _, h, _ | .uint _ _, _, h, _ | .int _ _, _, h, _ | .borshEnum, _, h, _ | .f32, _, h, _
  | .f64, _, h, _ | .str, _, h, _ | .lib _, _, h, _ | .iface, _, h, _ | .plainInt, _, h, _
  | .plainUint, _, h, _ | .other, _, h, _ => by cases h; exact Approx.same _
termination_by structural t => t
theorem encVariant_cut (e : Encoding) : (t u : Ty) → Cut t u → ∀ v, Approx (encVariant e t v) (encVariant e u v)
  | .struct fs, _, h, v => by
    cases h with
    | same => exact Approx.same _
    | @struct _ gs h =>
      cases v with
      | struct vs =>
        simp only [encVariant]
        exact encStruct_cut h (encFields_cut e fs gs h [] vs) fun i => encNth_cut e fs gs h i vs
      | _ => exact Approx.same _
  | .ptr _, _, h, v | .slice _, _, h, v | .array _ _, _, h, v | .map _ _, _, h, v => by
    cases h <;> simp only [encVariant, Ty.kind] <;> exact Approx.same _
  | .bool, _, h, _ | .uint _ _, _, h, _ | .int _ _, _, h, _ | .borshEnum, _, h, _ | .f32, _, h, _
  | .f64, _, h, _ | .str, _, h, _ | .lib _, _, h, _ | .iface, _, h, _ | .plainInt, _, h, _
  | .plainUint, _, h, _ | .other, _, h, _ => by cases h; exact Approx.same _
termination_by structural t => t
end

/-! ### decoding -/

theorem dead_dec (e : Encoding) (o : Opt) (s : Dec) : (decCore e dead o dead.zero s).1 = .err .unsupported := by
  unfold dead
  cases e <;> rfl

theorem Spec.Stump.dec {t u : Ty} (h : Stump t u) (e : Encoding) (o : Opt) :
    Approx (decCore e t o t.zero) (decCore e u o u.zero) := by
  intro s
  left
  cases h with
  | struct m t fs => exact dead_dec e o s
  | slice u => rfl
  | map k u => rfl

theorem absentVal_cut {t u : Ty} (h : Cut t u) : absentVal t t.zero = absentVal u u.zero := by
  cases h with
  | same => rfl
  | ptr h => cases h <;> rfl
  | ptrOff h => cases h <;> rfl
  | array h => exact (Cut.array h).zero _ _
  | struct h => exact (Cut.struct h).zero _ _
  | _ => rfl

theorem decField_cut {e : Encoding} {t u : Ty} {o : Opt} (ho : o.optional = false ∨ o.coptional = false) (h : Cut t u)
    {w w' : DM Val} (hw : Approx w w') : Approx (decField e t o t.zero w) (decField e u o u.zero w') := by
  unfold decField
  rw [h.asLib, h.baseLib, absentVal_cut h]
  refine (Approx.same _).bind fun _ => Approx.ite (fun h1 => ?_) fun _ => Approx.ite (fun _ => ?_) fun _ => hw
  · refine Approx.ite (fun _ => Approx.same _) fun _ => (Approx.same _).bind fun p => ?_
    refine Approx.ite (fun _ => ?_) fun _ => Approx.same _
    rcases ho with ho | ho
    · rw [h1] at ho; cases ho
    · rw [if_neg (by rw [ho]; simp), if_neg (by rw [ho]; simp)]
      exact hw
  · refine Approx.ite (fun _ => Approx.same _) fun _ => (Approx.same _).bind fun p => ?_
    exact Approx.ite (fun _ => hw) fun _ => Approx.same _

theorem decStruct_cut {e : Encoding} {fs gs : Fields} (h : CutFields fs gs) {a b : DM (List Val)} {f g : Nat → DM (List Val)}
    (ha : Approx a b) (hf : ∀ i, Approx (f i) (g i)) : Approx (decStruct e fs a f) (decStruct e gs b g) := by
  unfold decStruct
  rw [← h.isEnum, ← h.length]
  refine Approx.ite (fun _ => (Approx.same _).bind fun _ => Approx.ite (fun _ => Approx.same _) fun _ => ?_) fun _ => ?_
  · exact (hf _).bind fun _ => Approx.same _
  · exact ha.bind fun _ => Approx.same _

mutual
theorem decCore_cut (e : Encoding) : (t u : Ty) → Cut t u → ∀ o, Approx (decCore e t o t.zero) (decCore e u o u.zero)
  | .ptr t, _, h, o => by
    cases h with
    | same => exact Approx.same _
    | ptr h => exact (decCore_cut e t _ h o).bind fun _ => Approx.same _
    | ptrOff h => exact (h.dec e o).bind fun _ => Approx.same _
  | .slice t, _, h, o => by
    have main : ∀ u : Ty, t.uintKind = u.uintKind → Approx (decCore e t {} t.zero) (decCore e u {} u.zero) →
        Approx (decCore e (.slice t) o (Ty.slice t).zero) (decCore e (.slice u) o (Ty.slice u).zero) := by
      intro u hk hx
      simp only [decCore, Ty.zero]
      rw [hk]
      have body : ∀ l : Int, Approx (if e = .borsh ∧ l = 0 then pure (Val.seq none) else do
            let d ← M.get
            if l > d.remaining then M.err .eof
            else
              match u.uintKind with
              | some w => do
                let xs ← readUints l w
                pure (Val.seq (some xs))
              | none => do
                let xs ← repeatM (do setCurD .le; decCore e t {} t.zero) l.toNat
                pure (Val.seq (some xs)))
          (if e = .borsh ∧ l = 0 then pure (Val.seq none) else do
            let d ← M.get
            if l > d.remaining then M.err .eof
            else
              match u.uintKind with
              | some w => do
                let xs ← readUints l w
                pure (Val.seq (some xs))
              | none => do
                let xs ← repeatM (do setCurD .le; decCore e u {} u.zero) l.toNat
                pure (Val.seq (some xs))) := by
        intro l
        refine Approx.ite (fun _ => Approx.same _) fun _ => (Approx.same _).bind fun d => ?_
        refine Approx.ite (fun _ => Approx.same _) fun _ => ?_
        cases u.uintKind with
        | some w => exact Approx.same _
        | none => exact (Approx.repeat ((Approx.same _).bind fun _ => hx) _).bind fun _ => Approx.same _
      cases o.sizeOf with
      | some n => exact (Approx.same _).bind body
      | none => exact (Approx.same _).bind fun _ => (Approx.same _).bind body
    cases h with
    | same => exact Approx.same _
    | slice h => exact main _ h.uintKind (decCore_cut e t _ h {})
    | sliceOff h => exact main _ h.uintKind (h.dec e {})
  | .array n t, _, h, o => by
    cases h with
    | same => exact Approx.same _
    | @array _ _ u h =>
      simp only [decCore, Ty.zero, Val.elems]
      rw [h.uintKind]
      cases u.uintKind with
      | some w => exact Approx.same _
      | none =>
        refine Approx.bind (Approx.replicate ?_ n) fun _ => Approx.same _
        exact (Approx.same _).bind fun _ => decCore_cut e t u h {}
  | .map k t, _, h, o => by
    have main : ∀ u : Ty, Approx (decCore e t {} t.zero) (decCore e u {} u.zero) →
        Approx (decCore e (.map k t) o (Ty.map k t).zero) (decCore e (.map k u) o (Ty.map k u).zero) := by
      intro u hx
      simp only [decCore, Ty.zero]
      refine (Approx.same _).bind fun l => Approx.ite (fun _ => Approx.same _) fun _ => ?_
      refine Approx.bind (Approx.repeat ?_ _) fun _ => Approx.same _
      refine (Approx.same _).bind fun _ => (Approx.same _).bind fun _ => (Approx.same _).bind fun _ => ?_
      exact hx.bind fun _ => Approx.same _
    cases h with
    | same => exact Approx.same _
    | map h => exact main _ (decCore_cut e t _ h {})
    | mapOff h => exact main _ (h.dec e {})
  | .struct fs, _, h, o => by
    cases h with
    | same => exact Approx.same _
    | @struct _ gs h =>
      simp only [decCore, Ty.zero, Val.fields]
      exact decStruct_cut h (decFields_cut e fs gs h [] false) fun i => decNth_cut e fs gs h i
  | .bool, _, h, _ | .uint _ _, _, h, _ | .int _ _, _, h, _ | .borshEnum, _, h, _ | .f32, _, h, _
  | .f64, _, h, _ | .str, _, h, _ | .lib _, _, h, _ | .iface, _, h, _ | .plainInt, _, h, _
  | .plainUint, _, h, _ | .other, _, h, _ => by cases h; exact Approx.same _
termination_by structural t => t
theorem decFields_cut (e : Encoding) : (fs gs : Fields) → CutFields fs gs → ∀ sm seen,
    Approx (decFields e fs sm seen fs.zeros) (decFields e gs sm seen gs.zeros)
  | .nil, _, h, _, _ => by cases h; exact Approx.same _
  | .cons m t fs, gs, h, sm, seen => by
    have both : ∃ u gs', gs = .cons m u gs' ∧ Cut t u ∧ CutFields fs gs' ∧
        (u = t ∨ m.tag.option = false ∨ m.tag.coption = false) := by
      cases h with
      | keep h => exact ⟨_, _, rfl, .same _, h, .inl rfl⟩
      | cons ho ht h => exact ⟨_, _, rfl, ht, h, .inr ho⟩
    obtain ⟨u, gs, rfl, ht, h, ho⟩ := both
    have ih := decFields_cut e fs gs h
    simp only [decFields, Fields.zeros]
    rw [← ht.directLib, ← ht.zero t u]
    refine Approx.ite (fun _ => (ih _ _).bind fun _ => Approx.same _) fun _ => ?_
    refine Approx.ite (fun _ => Approx.same _) fun _ => (Approx.same _).bind fun atEnd => ?_
    refine Approx.ite (fun _ => (ih _ _).bind fun _ => Approx.same _) fun _ => ?_
    cases (if e = .borsh then t.directLib else none) with
    | some p =>
      exact (Approx.same _).bind fun _ => (ih _ _).bind fun _ => Approx.same _
    | none =>
      have core := decCore_cut e t u ht (fieldOpt m sm)
      have field : Approx (decField e t (fieldOpt m sm) t.zero (decCore e t (fieldOpt m sm) t.zero))
          (decField e u (fieldOpt m sm) t.zero (decCore e u (fieldOpt m sm) t.zero)) := by
        rcases ho with rfl | ho
        · exact Approx.same _
        · have := decField_cut (e := e) (o := fieldOpt m sm) ho ht core
          rw [← ht.zero t u] at this
          exact this
      refine field.bind fun x => ?_
      rw [recordSize_cut ht]
      exact (Approx.same _).bind fun _ => (ih _ _).bind fun _ => Approx.same _
termination_by structural fs => fs
theorem decNth_cut (e : Encoding) : (fs gs : Fields) → CutFields fs gs → ∀ i,
    Approx (decNth e fs i fs.zeros) (decNth e gs i gs.zeros)
  | .nil, _, h, _ => by cases h; exact Approx.same _
  | .cons m t fs, gs, h, i => by
    have both : ∃ u gs', gs = .cons m u gs' ∧ Cut t u ∧ CutFields fs gs' := by
      cases h with
      | keep h => exact ⟨_, _, rfl, .same _, h⟩
      | cons ho ht h => exact ⟨_, _, rfl, ht, h⟩
    obtain ⟨u, gs, rfl, ht, h⟩ := both
    cases i with
    | zero =>
      simp only [decNth, Fields.zeros]
      rw [← h.zeros fs gs]
      exact (Approx.same _).bind fun _ => (decCore_cut e t u ht {}).bind fun _ => Approx.same _
    | succ i =>
      simp only [decNth, Fields.zeros]
      rw [← ht.zero t u]
      exact (decNth_cut e fs gs h i).bind fun _ => Approx.same _
termination_by structural fs => fs
end

/-! ### whole values -/

theorem marshal_cut (e : Encoding) {t u : Ty} (h : Cut t u) (v : Val) :
    (marshal e t v).1 = .err .unsupported ∨ marshal e u v = marshal e t v := by
  have : Approx (encode t v) (encode u v) := by
    unfold encode
    refine (Approx.same _).bind fun s => ?_
    exact Approx.ite (fun _ => Approx.same _) fun _ => (Approx.same _).bind fun _ => encCore_cut s.enc t u h {} v
  rcases this (Enc.new e) with h | h
  · exact .inl h
  · right; unfold marshal; rw [h]

theorem unmarshal_cut (e : Encoding) {t u : Ty} (h : Cut t u) (b : Bytes) :
    unmarshal e t t.zero b = .err .unsupported ∨ unmarshal e u u.zero b = unmarshal e t t.zero b := by
  have : Approx (decode t t.zero) (decode u u.zero) := by
    unfold decode
    refine (Approx.same _).bind fun s => ?_
    exact Approx.ite (fun _ => Approx.same _) fun _ => (Approx.same _).bind fun _ => decCore_cut s.enc t u h {}
  rcases this (Dec.new b e) with h | h
  · exact .inl h
  · right; unfold unmarshal; rw [h]

end Verif
