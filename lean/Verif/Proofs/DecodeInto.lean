import Verif.Model.DecodeInto
/-!
# `decodeInto` and `decode` agree
-/
namespace Verif
namespace Fill
variable {α β : Type}

@[simp] theorem run_done (a : α) : (done a).run = pure a := rfl
@[simp] theorem run_stop_err (e : Err) (a : α) : (stop (.err e) a).run = M.err e := rfl
@[simp] theorem run_stop_panic (a : α) : (stop .panic a).run = M.panic := rfl

@[simp] theorem run_assign (m : DM α) (k : α) : (assign m k).run = m := by
  funext d
  simp only [run, assign]
  rcases m d with ⟨_ | _ | _, d'⟩ <;> rfl

@[simp] theorem run_read (m : DM α) (k : β) (f : α → Fill β) : (read m k f).run = m >>= fun a => (f a).run := by
  funext d
  simp only [run, read, M.bind_apply]
  rcases m d with ⟨_ | _ | _, d'⟩ <;> rfl

@[simp] theorem run_part (f : Fill α) (w : α → β) (g : α → Fill β) :
    (part f w g).run = f.run >>= fun a => (g a).run := by
  funext d
  simp only [run, part, M.bind_apply]
  rcases f d with ⟨_ | _ | _, a, d'⟩ <;> rfl

@[simp] theorem run_wrap (f : Fill α) (w : α → β) : (wrap f w).run = f.run >>= fun a => pure (w a) := by
  simp [wrap]

@[simp] theorem run_collect (f : Fill α) : ∀ n, (collect f n).run = repeatM f.run n
  | 0 => rfl
  | n + 1 => by simp [collect, repeatM, run_collect f n]

@[simp] theorem run_inPlace (f : α → Fill α) : ∀ xs, (inPlace f xs).run = traverseM (fun x => (f x).run) xs
  | [] => rfl
  | x :: xs => by simp [inPlace, traverseM, run_inPlace f xs]

theorem run_ite {p : Prop} [Decidable p] (a b : Fill α) : (if p then a else b).run = if p then a.run else b.run := by
  split <;> rfl

end Fill

private theorem bind_assoc' {σ α β γ : Type} (m : M σ α) (f : α → M σ β) (g : β → M σ γ) :
    (m >>= f) >>= g = m >>= fun a => f a >>= g := by
  funext s
  simp only [M.bind_apply]
  rcases m s with ⟨_ | _ | _, s'⟩ <;> rfl

theorem run_fillField {e : Encoding} {t : Ty} {o : Opt} {old : Val} {c : Fill Val} :
    (fillField e t o old c).run = decField e t o old c.run := by
  simp [fillField, decField, Fill.run_ite]

theorem run_fillStruct {e : Encoding} {fs : Fields} {old : Val} {a : Fill (List Val)} {b : Nat → Fill (List Val)} :
    (fillStruct e fs old a b).run = decStruct e fs a.run (fun i => (b i).run) := by
  simp [fillStruct, decStruct, Fill.run_ite]

mutual
theorem run_fillCore (e : Encoding) : ∀ (t : Ty) (o : Opt) (old : Val), (fillCore e t o old).run = decCore e t o old
  | .lib l, _, old => by simp [fillCore, decCore]
  | .ptr t, o, old => by simp [fillCore, decCore, run_fillCore e t]
  | .slice t, o, old => by
    have ih := run_fillCore e t {} t.zero
    simp only [fillCore, decCore, Fill.run_read, Fill.run_ite, Fill.run_done]
    cases o.sizeOf <;> cases t.uintKind <;> simp [ih, bind_assoc']
  | .array n t, _, old => by
    have ih := run_fillCore e t {}
    simp only [fillCore, decCore]
    cases t.uintKind <;> simp [ih]
  | .map k t, _, old => by
    have ih := run_fillCore e t {}
    have ik := run_fillCore e k {}
    simp [fillCore, decCore, Fill.run_ite, ih, ik]
  | .struct fs, _, old => by
    simp [fillCore, decCore, run_fillStruct, run_fillFields e fs, run_fillNth e fs]
  | .iface, _, old => by simp [fillCore, decCore]
  | .bool, _, _ | .uint _ _, _, _ | .int _ _, _, _ | .borshEnum, _, _ | .f32, _, _ | .f64, _, _ | .str, _, _ => by
    simp [fillCore, decCore, fillPlain]
  | .plainInt, _, _ | .plainUint, _, _ | .other, _, _ => by simp [fillCore, decCore]
theorem run_fillFields (e : Encoding) : ∀ (fs : Fields) (sm : List (Bytes × Int)) (seen : Bool) (vs : List Val),
    (fillFields e fs sm seen vs).run = decFields e fs sm seen vs
  | .nil, _, _, _ => by simp [fillFields, decFields]
  | .cons _ _ _, _, _, [] => by simp [fillFields, decFields]
  | .cons m t fs, sm, seen, v :: vs => by
    have ih := run_fillFields e fs
    have it := run_fillCore e t
    simp only [fillFields, decFields, Fill.run_ite, Fill.run_wrap, Fill.run_read, Fill.run_stop_panic, ih]
    cases hl : (if e = .borsh then t.directLib else none) with
    | none => simp [ih, it, run_fillField]
    | some x => rcases x with ⟨l, p⟩; simp [ih]
theorem run_fillNth (e : Encoding) : ∀ (fs : Fields) (i : Nat) (vs : List Val),
    (fillNth e fs i vs).run = decNth e fs i vs
  | .cons _ t _, 0, v :: vs => by simp [fillNth, decNth, run_fillCore e t]
  | .cons _ _ fs, i + 1, v :: vs => by simp [fillNth, decNth, run_fillNth e fs]
  | .nil, _, _ => by simp [fillNth, decNth]
  | .cons _ _ _, _, [] => by simp [fillNth, decNth]
end

theorem run_decodeInto (t : Ty) (old : Val) : (decodeInto t old).run = decode t old := by
  simp [decodeInto, decode, Fill.run_ite, run_fillCore]

end Verif
