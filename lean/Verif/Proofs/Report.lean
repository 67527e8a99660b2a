import Verif.Model.Report
/-! The coders with reports do what the coders do: forgetting the reports gives `encCore` and `decCore`. -/
set_option linter.unusedSimpArgs false
namespace Verif
namespace T
variable {σ α β : Type}

/-- The outcome without the report. -/
def _root_.Verif.Told.plain : Told α → Res α
  | .ok a => .ok a
  | .err r => .err r.cause
  | .panic => .panic

/-- Forget the reports. -/
def plain (x : T σ α) : M σ α := fun s => ((x s).1.plain, (x s).2)

theorem plain_apply (x : T σ α) (s : σ) : x.plain s = ((x s).1.plain, (x s).2) := rfl

theorem bind_apply (x : T σ α) (f : α → T σ β) (s : σ) :
    (x >>= f) s = match x s with
      | (.ok a, s') => f a s'
      | (.err r, s') => (.err r, s')
      | (.panic, s') => (.panic, s') := rfl

theorem bind_ok {x : T σ α} {f : α → T σ β} {s s' : σ} {a : α} (h : x s = (.ok a, s')) : (x >>= f) s = f a s' := by
  rw [bind_apply, h]
theorem bind_err {x : T σ α} {f : α → T σ β} {s s' : σ} {r : Report} (h : x s = (.err r, s')) : (x >>= f) s = (.err r, s') := by
  rw [bind_apply, h]
theorem bind_panic {x : T σ α} {f : α → T σ β} {s s' : σ} (h : x s = (.panic, s')) : (x >>= f) s = (.panic, s') := by
  rw [bind_apply, h]

@[simp] theorem plain_pure (a : α) : (pure a : T σ α).plain = pure a := rfl

@[simp] theorem plain_bind (x : T σ α) (f : α → T σ β) : (x >>= f).plain = x.plain >>= fun a => (f a).plain := by
  funext s
  rw [plain_apply, bind_apply, M.bind_apply, plain_apply]
  rcases x s with ⟨r, s'⟩
  cases r <;> rfl

@[simp] theorem plain_of (m : M σ α) : (of m).plain = m := by
  funext s
  rw [plain_apply]
  unfold of
  rcases h : m s with ⟨r, s'⟩
  cases r <;> rfl

@[simp] theorem plain_asText (x : T σ α) : x.asText.plain = x.plain := by
  funext s
  rw [plain_apply, plain_apply]
  unfold asText
  rcases x s with ⟨r, s'⟩
  cases r <;> rfl

@[simp] theorem plain_inField (n : Bytes) (x : T σ α) : (x.inField n).plain = x.plain := by
  funext s
  rw [plain_apply, plain_apply]
  unfold inField
  rcases x s with ⟨r, s'⟩
  cases r <;> rfl

@[simp] theorem plain_repeat (f : T σ α) (n : Nat) : (repeatT f n).plain = repeatM f.plain n := by
  induction n with
  | zero => rfl
  | succ n ih => simp only [repeatT, repeatM, plain_bind, plain_pure, ih]

@[simp] theorem plain_traverse (f : α → T σ β) (xs : List α) : (traverseT f xs).plain = traverseM (fun a => (f a).plain) xs := by
  induction xs with
  | nil => rfl
  | cons x xs ih => simp only [traverseT, traverseM, plain_bind, plain_pure, ih]

@[simp] theorem plain_forEach (f : α → T σ Unit) (xs : List α) : (forEachT f xs).plain = forEachM (fun a => (f a).plain) xs := by
  induction xs with
  | nil => rfl
  | cons x xs ih => simp only [forEachT, forEachM, plain_bind, ih]

@[simp] theorem plain_forIndex (f : α → T σ Unit) (n : Nat) (xs : List α) :
    (forIndexT f n xs).plain = forIndexM (fun a => (f a).plain) n xs := by
  induction n generalizing xs with
  | zero => rfl
  | succ n ih =>
    cases xs with
    | nil => simp only [forIndexT, forIndexM, plain_of]
    | cons x xs => simp only [forIndexT, forIndexM, plain_bind, ih]

theorem plain_ite (c : Prop) [Decidable c] (x y : T σ α) : (if c then x else y).plain = if c then x.plain else y.plain := by
  split <;> rfl

end T
open T

theorem M.bind_pure' {σ α : Type} (x : M σ α) : (x >>= fun a => pure a) = x := by
  funext s
  rw [M.bind_apply]
  rcases x s with ⟨r, s'⟩
  cases r <;> rfl

theorem M.bind_assoc' {σ α β γ : Type} (x : M σ α) (f : α → M σ β) (g : β → M σ γ) :
    ((x >>= f) >>= g) = (x >>= fun a => f a >>= g) := by
  funext s
  simp only [M.bind_apply]
  rcases x s with ⟨r, s'⟩
  cases r <;> rfl

theorem encU128FieldsT_plain (v : Val) : (encU128FieldsT v).plain = encU128Fields v := by
  cases v <;> first
    | simp only [encU128FieldsT, encU128Fields, plain_bind, plain_inField, plain_of, M.bind_assoc']
    | exact plain_of _

theorem encLibPayloadT_plain (e : Encoding) (l : Lib) (v : Val) : (encLibPayloadT e l v).plain = encLibPayload e l v := by
  cases l <;> first
    | exact encU128FieldsT_plain v
    | exact plain_of _

theorem encStructT_plain (e : Encoding) (fs : Fields) (vs : List Val) (a : T Enc Unit) (b : Nat → T Enc Unit) :
    (encStructT e fs vs a b).plain = encStruct e fs vs a.plain fun i => (b i).plain := by
  unfold encStructT encStruct
  rw [plain_ite]
  split
  · split <;> simp only [plain_bind, plain_of, plain_ite]
  · rfl

mutual
theorem encT_plain (e : Encoding) : (t : Ty) → (o : Opt) → (v : Val) → (encT e t o v).plain = encCore e t o v
  | .ptr t, o, v => by
    cases v with
    | ptr p =>
      simp only [encT, encCore]
      cases h : t.asLib with
      | some l => simp only [plain_of, encCore, h]
      | none =>
        simp only [plain_ite, plain_bind, plain_of, encT_plain e t]
        cases p with
        | none => rfl
        | some x => simp only [encT_plain e t]
    | _ => exact plain_of _
  | .slice t, o, v => by
    cases v with
    | seq xs =>
      have h := fun x => encT_plain e t {} x
      simp only [encT, encCore, plain_bind, plain_of]
      cases t.uintKind <;> simp only [plain_of, plain_forIndex, plain_bind, h] <;> cases o.sizeOf <;>
        first | rfl | exact M.bind_assoc' _ _ _
    | _ => exact plain_of _
  | .array n t, o, v => by
    cases v with
    | arr xs =>
      have h := fun x => encT_plain e t {} x
      simp only [encT, encCore]
      cases t.uintKind <;> simp only [plain_of, plain_forIndex, plain_bind, h]
    | _ => exact plain_of _
  | .map k t, o, v => by
    cases v with
    | map m =>
      have h := fun x => encT_plain e t {} x
      have h' := fun x => encT_plain e k {} x
      simp only [encT, encCore, plain_of, plain_bind, plain_forEach, plain_ite, h, h']
    | _ => exact plain_of _
  | .struct fs, o, v => by
    cases v with
    | struct vs =>
      have h := fun i => encNthT_plain e fs i vs
      simp only [encT, encCore, encStructT_plain, encFieldsT_plain e fs, h]
    | _ => exact plain_of _
  | .lib l, o, v => by simp only [encT, plain_of]
  | .bool, o, v => by simp only [encT, plain_of]
  | .uint w b, o, v => by simp only [encT, plain_of]
  | .int w b, o, v => by simp only [encT, plain_of]
  | .borshEnum, o, v => by simp only [encT, plain_of]
  | .f32, o, v => by simp only [encT, plain_of]
  | .f64, o, v => by simp only [encT, plain_of]
  | .str, o, v => by simp only [encT, plain_of]
  | .plainInt, o, v => by simp only [encT, plain_of]
  | .plainUint, o, v => by simp only [encT, plain_of]
  | .other, o, v => by simp only [encT, plain_of]
  | .iface, o, v => by simp only [encT, plain_of]
theorem encFieldsT_plain (e : Encoding) : (fs : Fields) → (sm : List (Bytes × Int)) → (vs : List Val) →
    (encFieldsT e fs sm vs).plain = encFields e fs sm vs
  | .nil, _, _ => by simp only [encFieldsT, encFields, plain_pure]
  | .cons _ _ _, _, [] => by simp only [encFieldsT, encFields, plain_of]
  | .cons m t fs, sm, v :: vs => by
    have h := fun sm => encFieldsT_plain e fs sm vs
    simp only [encFieldsT, encFields, plain_ite, plain_bind, plain_inField, plain_of, plain_pure, encT_plain e t, h, M.bind_assoc']
    congr 1
    congr 1
    funext sm
    congr 1
    congr 1
    funext _
    congr 1
    funext more
    cases more <;> rfl
theorem encNthT_plain (e : Encoding) : (fs : Fields) → (i : Nat) → (vs : List Val) → (encNthT e fs i vs).plain = encNth e fs i vs
  | .cons _ t _, 0, v :: _ => by simp only [encNthT, encNth, encPayloadT_plain e t]
  | .cons _ _ fs, i + 1, _ :: vs => by simp only [encNthT, encNth, encNthT_plain e fs i vs]
  | .nil, _, _ => by simp only [encNthT, encNth, plain_of]
  | .cons _ _ _, 0, [] => by simp only [encNthT, encNth, plain_of]
  | .cons _ _ _, _ + 1, [] => by simp only [encNthT, encNth, plain_of]
theorem encPayloadT_plain (e : Encoding) : (t : Ty) → (v : Val) → (encPayloadT e t v).plain = encPayload e t v
  | .ptr t, v => by
    cases v with
    | ptr p =>
      cases p with
      | none => simp only [encPayloadT, encPayload, plain_pure]
      | some x => simp only [encPayloadT, encPayload, encVariantT_plain e t]
    | _ => exact plain_of _
  | .struct fs, v => by
    cases v with
    | struct vs =>
      have h := fun i => encNthT_plain e fs i vs
      simp only [encPayloadT, encPayload, encStructT_plain, encFieldsT_plain e fs, h]
    | _ => exact plain_of _
  | .lib l, v => by simp only [encPayloadT, encPayload, encLibPayloadT_plain]
  | .bool, v => by simp only [encPayloadT, plain_of]
  | .uint w b, v => by simp only [encPayloadT, plain_of]
  | .int w b, v => by simp only [encPayloadT, plain_of]
  | .borshEnum, v => by simp only [encPayloadT, plain_of]
  | .f32, v => by simp only [encPayloadT, plain_of]
  | .f64, v => by simp only [encPayloadT, plain_of]
  | .str, v => by simp only [encPayloadT, plain_of]
  | .plainInt, v => by simp only [encPayloadT, plain_of]
  | .plainUint, v => by simp only [encPayloadT, plain_of]
  | .other, v => by simp only [encPayloadT, plain_of]
  | .iface, v => by simp only [encPayloadT, plain_of]
  | .slice _, v => by simp only [encPayloadT, plain_of]
  | .array _ _, v => by simp only [encPayloadT, plain_of]
  | .map _ _, v => by simp only [encPayloadT, plain_of]
theorem encVariantT_plain (e : Encoding) : (t : Ty) → (v : Val) → (encVariantT e t v).plain = encVariant e t v
  | .struct fs, v => by
    cases v with
    | struct vs =>
      have h := fun i => encNthT_plain e fs i vs
      simp only [encVariantT, encVariant, encStructT_plain, encFieldsT_plain e fs, h]
    | _ => exact plain_of _
  | .lib l, v => by simp only [encVariantT, encVariant, encLibPayloadT_plain]
  | .bool, v => by simp only [encVariantT, plain_of]
  | .uint w b, v => by simp only [encVariantT, plain_of]
  | .int w b, v => by simp only [encVariantT, plain_of]
  | .borshEnum, v => by simp only [encVariantT, plain_of]
  | .f32, v => by simp only [encVariantT, plain_of]
  | .f64, v => by simp only [encVariantT, plain_of]
  | .str, v => by simp only [encVariantT, plain_of]
  | .plainInt, v => by simp only [encVariantT, plain_of]
  | .plainUint, v => by simp only [encVariantT, plain_of]
  | .other, v => by simp only [encVariantT, plain_of]
  | .iface, v => by simp only [encVariantT, plain_of]
  | .slice _, v => by simp only [encVariantT, plain_of]
  | .array _ _, v => by simp only [encVariantT, plain_of]
  | .map _ _, v => by simp only [encVariantT, plain_of]
  | .ptr t, v => by simp only [encVariantT, plain_of]
end

theorem encodeT_plain (t : Ty) (v : Val) : (encodeT t v).plain = encode t v := by
  unfold encodeT encode
  simp only [plain_bind, plain_of, plain_ite, encT_plain]

theorem unmarshalLibT_plain (l : Lib) (old : Val) : (unmarshalLibT l old).plain = unmarshalLib l old := by
  cases l <;> simp only [unmarshalLibT, plain_asText, plain_of]

theorem decFieldT_plain (e : Encoding) (t : Ty) (o : Opt) (old : Val) (core : T Dec Val) :
    (decFieldT e t o old core).plain = decField e t o old core.plain := by
  unfold decFieldT decField
  simp only [plain_bind, plain_of, plain_ite, plain_asText, plain_pure]

theorem decStructT_plain (e : Encoding) (fs : Fields) (a : T Dec (List Val)) (b : Nat → T Dec (List Val)) :
    (decStructT e fs a b).plain = decStruct e fs a.plain fun i => (b i).plain := by
  unfold decStructT decStruct
  simp only [plain_bind, plain_of, plain_ite, plain_pure]

mutual
theorem decT_plain (e : Encoding) : (t : Ty) → (o : Opt) → (old : Val) → (decT e t o old).plain = decCore e t o old
  | .lib l, o, old => by simp only [decT, decCore, unmarshalLibT_plain]
  | .ptr t, o, old => by simp only [decT, decCore, plain_bind, plain_pure, decT_plain e t]
  | .slice t, o, old => by
    have h := fun x => decT_plain e t {} x
    simp only [decT, decCore, plain_bind, plain_of, plain_ite, plain_pure]
    cases t.uintKind <;> simp only [plain_of, plain_repeat, plain_bind, plain_pure, h] <;> cases o.sizeOf <;>
      first | rfl | exact M.bind_assoc' _ _ _
  | .array n t, o, old => by
    have h := fun x => decT_plain e t {} x
    simp only [decT, decCore]
    cases t.uintKind <;> simp only [plain_of, plain_traverse, plain_bind, plain_pure, h]
  | .map k t, o, old => by
    simp only [decT, decCore, plain_of, plain_bind, plain_repeat, plain_ite, plain_pure, decT_plain e k, decT_plain e t]
  | .struct fs, o, old => by
    have h := fun i => decNthT_plain e fs i (old.fields fs)
    simp only [decT, decCore, decStructT_plain, decFieldsT_plain e fs, h]
  | .bool, o, v => by simp only [decT, plain_of]
  | .uint w b, o, v => by simp only [decT, plain_of]
  | .int w b, o, v => by simp only [decT, plain_of]
  | .borshEnum, o, v => by simp only [decT, plain_of]
  | .f32, o, v => by simp only [decT, plain_of]
  | .f64, o, v => by simp only [decT, plain_of]
  | .str, o, v => by simp only [decT, plain_of]
  | .plainInt, o, v => by simp only [decT, plain_of]
  | .plainUint, o, v => by simp only [decT, plain_of]
  | .other, o, v => by simp only [decT, plain_of]
  | .iface, o, v => by simp only [decT, plain_of]
theorem decFieldsT_plain (e : Encoding) : (fs : Fields) → (sm : List (Bytes × Int)) → (seen : Bool) → (vs : List Val) →
    (decFieldsT e fs sm seen vs).plain = decFields e fs sm seen vs
  | .nil, _, _, _ => by simp only [decFieldsT, decFields, plain_pure]
  | .cons _ _ _, _, _, [] => by simp only [decFieldsT, decFields, plain_of]
  | .cons m t fs, sm, seen, v :: vs => by
    have h := fun sm seen => decFieldsT_plain e fs sm seen vs
    simp only [decFieldsT, decFields, plain_ite, plain_bind, plain_of, plain_pure, h]
    generalize (if e = .borsh then t.directLib else none) = g
    cases g with
    | some p => simp only [plain_bind, unmarshalLibT_plain, h, plain_pure]
    | none => simp only [plain_bind, plain_inField, decFieldT_plain, decT_plain e t, plain_of, h, plain_pure]
theorem decNthT_plain (e : Encoding) : (fs : Fields) → (i : Nat) → (vs : List Val) → (decNthT e fs i vs).plain = decNth e fs i vs
  | .cons _ t _, 0, v :: _ => by simp only [decNthT, decNth, plain_bind, plain_of, plain_pure, decT_plain e t]
  | .cons _ _ fs, i + 1, _ :: vs => by simp only [decNthT, decNth, plain_bind, plain_pure, decNthT_plain e fs i vs]
  | .nil, _, _ => by simp only [decNthT, decNth, plain_of]
  | .cons _ _ _, 0, [] => by simp only [decNthT, decNth, plain_of]
  | .cons _ _ _, _ + 1, [] => by simp only [decNthT, decNth, plain_of]
end

theorem decodeT_plain (t : Ty) (old : Val) : (decodeT t old).plain = decode t old := by
  unfold decodeT decode
  simp only [plain_bind, plain_of, plain_ite, decT_plain]

end Verif
