import Verif.Proofs.Inert
import Verif.Spec.Libs
/-! Borsh writes a nil pointer as a pointer to the zero value. -/
set_option linter.unusedSimpArgs false
namespace Verif
open Spec

theorem fillNil_uintKind {t : Ty} {w : Width} (h : t.uintKind = some w) (v : Val) : fillNil t v = v := by
  cases t <;> simp only [Ty.uintKind, Ty.kind, reduceCtorEq] at h <;> cases v <;> simp only [fillNil]

theorem fillNil_sizeof (t : Ty) (v : Val) : sizeofVal t.kind (fillNil t v) = sizeofVal t.kind v := by
  cases t <;> cases v <;> simp only [fillNil] <;> (try rfl) <;> (try (split <;> rfl))

theorem all2_mapFill {α β : Type} {R : α → β → Prop} (f : α → β) : (xs : List α) → (∀ x ∈ xs, R x (f x)) → All2 R xs (xs.map f)
  | [], _ => trivial
  | x :: xs, h => ⟨h x (by simp), all2_mapFill f xs fun y hy => h y (by simp [hy])⟩

mutual
theorem encCore_fill : (t : Ty) → (o : Opt) → (v : Val) → encCore .borsh t o v = encCore .borsh t o (fillNil t v)
  | .ptr t, o, v => by
    cases v <;> simp only [fillNil]
    rename_i p
    cases hl : t.asLib with
    | some l => simp
    | none =>
      simp only [Option.isSome_none, Bool.false_eq_true, if_false, encCore, hl, if_true, Option.getD_some]
      rw [encCore_fill t {} (p.getD t.zero)]
  | .slice t, o, v => by
    cases v <;> simp only [fillNil]
    rename_i xs
    cases hu : t.uintKind with
    | some w =>
      have : (fun x => fillNil t x) = id := funext fun x => fillNil_uintKind hu x
      rw [this]; simp
    | none =>
      have hg : (Option.map (fun l => l.map fun x => fillNil t x) xs).getD [] = (xs.getD []).map fun x => fillNil t x := by
        cases xs <;> simp
      simp only [encCore, hu, hg, List.length_map]
      have := fun n => forIndexM_all2 (P := fun x y => y = fillNil t x) (f := fun x => do setCurE .le; encCore .borsh t {} x)
          (fun x y hxy => by rw [hxy, ← encCore_fill t {} x]) n (xs.getD []) _ (all2_mapFill (fun x => fillNil t x) _ fun _ _ => rfl)
      simp only [this]
  | .array n t, o, v => by
    cases v <;> simp only [fillNil]
    rename_i xs
    cases hu : t.uintKind with
    | some w =>
      have : (fun x => fillNil t x) = id := funext fun x => fillNil_uintKind hu x
      rw [this]; simp
    | none =>
      simp only [encCore, hu]
      exact forIndexM_all2 (P := fun x y => y = fillNil t x)
        (fun x y hxy => by rw [hxy, ← encCore_fill t {} x]) n _ _ (all2_mapFill (fun x => fillNil t x) _ fun _ _ => rfl)
  | .map k t, o, v => by
    cases v <;> simp only [fillNil]
    rename_i m
    have hg : (Option.map (fun l => l.map fun x : Val × Val => (x.1, fillNil t x.2)) m).getD [] =
        (m.getD []).map fun x : Val × Val => (x.1, fillNil t x.2) := by
      cases m <;> simp
    simp only [encCore, hg]
    have h : All2 (fun a b : Val × Val => a.1 = b.1 ∧ b.2 = fillNil t a.2) (m.getD [])
        ((m.getD []).map fun x : Val × Val => (x.1, fillNil t x.2)) :=
      all2_mapFill _ _ fun _ _ => ⟨rfl, rfl⟩
    rcases mapEntries_all2 .borsh k (R := fun x y => y = fillNil t x) h with ⟨xs, ys, h1, h2, h3⟩ | ⟨h1, h2⟩
    · have hbody := forEachM_all2 (f := fun x : Val × Val => (do
          setCurE .le
          encCore .borsh k {} x.1
          if k.found x.1 then do
            setCurE .le
            encCore .borsh t {} x.2
          else M.panic : EM Unit))
        (fun x y hxy => by rw [hxy.1, hxy.2, ← encCore_fill t {} x.2]) xs ys h3
      rw [h1, h2]
      funext s
      simp only [M.bind_apply, M.pure_apply, all2_length h3, hbody]
    · rw [h1, h2]
  | .struct fs, o, v => by
    cases v <;> simp only [fillNil]
    rename_i vs
    by_cases he : fs.isEnum = true
    · rw [if_pos he]
    · rw [if_neg he]
      simp only [encCore, encStruct, he, and_false, if_false]
      exact encFields_fill fs [] vs
  | .lib _, _, v | .iface, _, v | .bool, _, v | .uint _ _, _, v | .int _ _, _, v | .borshEnum, _, v
  | .f32, _, v | .f64, _, v | .str, _, v | .plainInt, _, v | .plainUint, _, v
  | .other, _, v => by cases v <;> simp only [fillNil]
termination_by structural t => t
theorem encFields_fill : (fs : Fields) → (sm : List (Bytes × Int)) → (vs : List Val) →
    encFields .borsh fs sm vs = encFields .borsh fs sm (fillNils fs vs)
  | .nil, _, vs => by simp only [encFields]
  | .cons m t fs, sm, [] => by simp only [fillNils]
  | .cons m t fs, sm, v :: vs => by
    have hrec := fun sm => encFields_fill fs sm vs
    simp only [fillNils, encFields]
    by_cases hsk : m.tag.skip = true
    · rw [if_pos hsk, if_pos hsk, hrec]
    · rw [if_neg hsk, if_neg hsk]
      by_cases hc : m.tag.skip = true ∨ m.exported = false ∨ m.tag.option = true ∨ m.tag.coption = true
      · rw [if_pos hc]
        simp only [hrec]
      · rw [if_neg hc]
        simp only [not_or, Bool.not_eq_true, Bool.not_eq_false] at hc
        obtain ⟨-, hx, ho, hco⟩ := hc
        rw [recordSize_same m t v (fillNil t v) sm (.inr (fillNil_sizeof t v).symm)]
        congr 1
        funext sm'
        have hfl : ∀ x, encFlags .borsh t (fieldOpt m sm') x = pure true := by
          intro x
          have a1 : (fieldOpt m sm').optional = false := ho
          have a2 : (fieldOpt m sm').coptional = false := hco
          unfold encFlags
          simp only [a1, a2, Bool.false_eq_true, false_and, and_false, if_false]
        simp only [hx, if_true, hfl, hrec sm', ← encCore_fill t (fieldOpt m sm') v]
termination_by structural fs => fs
end

theorem encode_fill (t : Ty) (v : Val) (s : Enc) (h : s.enc = .borsh) : encode t v s = encode t (fillNil t v) s := by
  unfold encode
  rw [M.bind_apply, M.get_apply, M.bind_apply, M.get_apply]
  simp only []
  rw [h, encCore_fill t {} v]

end Verif
