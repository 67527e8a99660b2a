import Verif.Model.Trace
import Verif.Spec.Trace
import Verif.Proofs.Sim
/-!
The encoder with tracing follows the one without.
-/
set_option linter.unusedSimpArgs false
namespace Verif

theorem Sim.grows {α : Type} {w : EM α} (h : Sim w) (s : Enc) : s.log <+: (w s).2.log := by
  obtain ⟨r, cs, c, _, ⟨_, h2⟩ | ⟨pre, b, post, c', _, _, _, h2⟩⟩ := h s
  · rw [h2]; exact List.prefix_append _ _
  · rw [h2]; exact List.prefix_append _ _

/-- The traced call does what the other does, or, unless `ok`, it panics part of the way. -/
structure Shadows {α : Type} (ok : Prop) (mT : M Traced α) (m : EM α) : Prop where
  sim : Sim m
  rel : ∀ s ns, mT ⟨s, ns⟩ = ((m s).1, ⟨(m s).2, ns⟩) ∨
    (¬ ok ∧ ∃ s', mT ⟨s, ns⟩ = (.panic, ⟨s', ns⟩) ∧ s.log <+: s'.log ∧ s'.log <+: (m s).2.log)

namespace Shadows
variable {α β : Type} {ok : Prop}

theorem of (ok : Prop) {m : EM α} (h : Sim m) : Shadows ok (onEnc m) m := ⟨h, fun _ _ => Or.inl rfl⟩
theorem lift (r : Res α) : Shadows ok (M.lift r) (M.lift r) := ⟨Sim.lift r, fun _ _ => Or.inl rfl⟩
theorem pure (a : α) : Shadows ok (Pure.pure a) (Pure.pure a) := lift (.ok a)
theorem err (e : Err) : Shadows ok (M.err e : M Traced α) (M.err e) := lift (.err e)
theorem panic : Shadows ok (M.panic : M Traced α) M.panic := lift .panic

theorem mono {ok' : Prop} {mT : M Traced α} {m : EM α} (h : Shadows ok mT m) (hk : ok' → ok) : Shadows ok' mT m :=
  ⟨h.sim, fun s ns => (h.rel s ns).imp id fun ⟨h1, h2⟩ => ⟨fun k => h1 (hk k), h2⟩⟩

theorem bind {mT : M Traced α} {m : EM α} {fT : α → M Traced β} {f : α → EM β} (h : Shadows ok mT m)
    (hf : ∀ a, Shadows ok (fT a) (f a)) : Shadows ok (mT >>= fT) (m >>= f) := by
  refine ⟨h.sim.bind fun a => (hf a).sim, fun s ns => ?_⟩
  rcases h.rel s ns with h1 | ⟨h0, s', h1, h2, h3⟩
  · rcases hm : m s with ⟨r, s₁⟩
    rw [hm] at h1
    cases r with
    | ok a =>
      rw [M.bind_ok hm, M.bind_ok h1]
      rcases (hf a).rel s₁ ns with h4 | ⟨h0, s', h4, h5, h6⟩
      · exact Or.inl h4
      · refine Or.inr ⟨h0, s', h4, ?_, h6⟩
        have hg := h.sim.grows s
        rw [hm] at hg
        exact hg.trans h5
    | err e => rw [M.bind_err hm, M.bind_err h1]; exact Or.inl rfl
    | panic => rw [M.bind_panic hm, M.bind_panic h1]; exact Or.inl rfl
  · refine Or.inr ⟨h0, s', M.bind_panic h1, h2, h3.trans ?_⟩
    rcases hm : m s with ⟨r, s₁⟩
    cases r with
    | ok a => rw [M.bind_ok hm]; exact (hf a).sim.grows s₁
    | err e => rw [M.bind_err hm]; exact List.prefix_refl _
    | panic => rw [M.bind_panic hm]; exact List.prefix_refl _

theorem ite {p : Prop} [Decidable p] {aT bT : M Traced α} {a b : EM α} (ha : Shadows ok aT a) (hb : Shadows ok bT b) :
    Shadows ok (if p then aT else bT) (if p then a else b) := by
  split
  · exact ha
  · exact hb

theorem named {mT : M Traced α} {m : EM α} (h : Shadows ok mT m) (tr : Bool) (n : LogName) : Shadows ok (named tr n mT) m := by
  refine ⟨h.sim, fun s ns => ?_⟩
  unfold Verif.named
  cases tr with
  | false => exact h.rel s ns
  | true =>
    rcases h.rel s (ns ++ [n]) with h1 | ⟨h0, s', h1, h2, h3⟩
    · left; simp [h1]
    · right; exact ⟨h0, s', by simp [h1], h2, h3⟩

theorem forEach {γ : Type} {fT : γ → M Traced Unit} {f : γ → EM Unit} (hf : ∀ a, Shadows ok (fT a) (f a)) (xs : List γ) :
    Shadows ok (forEachM fT xs) (forEachM f xs) := by
  induction xs with
  | nil => exact pure ()
  | cons x xs ih => exact (hf x).bind fun _ => ih

theorem forIndex {γ : Type} {fT : γ → M Traced Unit} {f : γ → EM Unit} (hf : ∀ a, Shadows ok (fT a) (f a)) (n : Nat) (xs : List γ) :
    Shadows ok (forIndexM fT n xs) (forIndexM f n xs) := by
  induction n generalizing xs with
  | zero => exact pure ()
  | succ n ih =>
    cases xs with
    | nil => exact panic
    | cons x xs => exact (hf x).bind fun _ => ih xs

theorem recordSize (m : FieldMeta) (t : Ty) (v : Val) (sm : List (Bytes × Int)) :
    Shadows ok (recordSize m t v sm : M Traced _) (Verif.recordSize m t v sm) :=
  (pure _).ite ((lift _).bind fun _ => pure _)

theorem encStruct {e : Encoding} {fs : Fields} {vs : List Val} {fieldsT : M Traced Unit} {nthT : Nat → M Traced Unit} {fields : EM Unit}
    {nth : Nat → EM Unit} (h1 : Shadows ok fieldsT fields) (h2 : e = .borsh → ∀ i, Shadows ok (nthT i) (nth i)) :
    Shadows ok (encStructTr e fs vs fieldsT nthT) (encStruct e fs vs fields nth) := by
  unfold encStructTr Verif.encStruct
  split
  · rename_i he
    rcases vs with _ | ⟨v, vs⟩
    · exact panic
    · cases v <;> first | exact panic | exact (of ok (Sim.writeByte _)).bind fun _ => (err _).ite (h2 he.1 _)
  · exact h1

end Shadows

/-- Nothing can go wrong. -/
def Calm (tr : Bool) (e : Encoding) (b : Bool) : Prop := tr = false ∨ e = .borsh ∨ b = true

theorem Calm.imp {tr : Bool} {e : Encoding} {b b' : Bool} (h : b = true → b' = true) : Calm tr e b → Calm tr e b'
  | .inl h1 => .inl h1
  | .inr (.inl h1) => .inr (.inl h1)
  | .inr (.inr h1) => .inr (.inr (h h1))

theorem Shadows.scalarD {ok : Prop} {e : Encoding} {k : Kind} {o : Order} {v : Val} :
    Shadows ok (onEnc ((Verif.encScalar e k o v).getD (Pure.pure ()))) ((Verif.encScalar e k o v).getD (Pure.pure ())) :=
  .of _ (Sim.scalarD (Sim.pure ()))

section
open Shadows
mutual
theorem Shadows.encCore (tr : Bool) (e : Encoding) : (t : Ty) → (o : Opt) → (v : Val) →
    Shadows (Calm tr e (Spec.mapless t)) (encCoreTr tr e t o v) (encCore e t o v)
  | .lib l, o, v => by simp only [Verif.encCore, encCoreTr]; exact .of _ (Sim.marshalLib _ _)
  | .ptr t, o, v => by
    cases v <;> simp only [Verif.encCore, encCoreTr] <;> try exact .panic
    rename_i p
    cases t.asLib with
    | some l =>
      cases p with
      | some x => exact .of _ (Sim.marshalLib _ _)
      | none => exact (Shadows.pure ()).ite .panic
    | none =>
      refine Shadows.ite ((Shadows.of _ (Sim.setCur _)).bind fun _ => (Shadows.encCore tr e t _ _).mono ?_)
        ((Shadows.of _ (Sim.setCur _)).bind fun _ => ?_)
      · exact Calm.imp (by simp [Spec.mapless])
      cases p with
      | none => exact .pure ()
      | some x => exact (Shadows.encCore tr e t _ _).mono (Calm.imp (by simp [Spec.mapless]))
  | .slice t, o, v => by
    cases v <;> simp only [Verif.encCore, encCoreTr] <;> try exact .panic
    rename_i xs
    have hb : ∀ l : Int, Shadows (Calm tr e (Spec.mapless (.slice t))) (Verif.named tr .slice (match t.uintKind with
      | some w => onEnc (Verif.writeUints l w (xs.getD []))
      | none => forIndexM (fun x => do onEnc (setCurE .le); encCoreTr tr e t {} x) l.toNat (xs.getD [])))
      (match t.uintKind with
      | some w => Verif.writeUints l w (xs.getD [])
      | none => forIndexM (fun x => do setCurE .le; Verif.encCore e t {} x) l.toNat (xs.getD [])) := by
      intro l
      apply Shadows.named
      cases t.uintKind with
      | some w => exact .of _ (Sim.writeUints _ _ _)
      | none =>
        exact .forIndex (fun x => (Shadows.of _ (Sim.setCur _)).bind fun _ =>
          (Shadows.encCore tr e t _ _).mono (Calm.imp (by simp [Spec.mapless]))) _ _
    cases o.sizeOf with
    | some s => exact hb s
    | none => exact (Shadows.of _ (Sim.writeSeqLen _ _)).bind fun _ => hb _
  | .array n t, o, v => by
    cases v <;> simp only [Verif.encCore, encCoreTr] <;> try exact .panic
    apply Shadows.named
    cases t.uintKind with
    | some w => exact .of _ (Sim.writeUints _ _ _)
    | none =>
      exact .forIndex (fun x => (Shadows.of _ (Sim.setCur _)).bind fun _ =>
        (Shadows.encCore tr e t _ _).mono (Calm.imp (by simp [Spec.mapless]))) _ _
  | .map k t, o, v => by
    cases v <;> simp only [Verif.encCore, encCoreTr] <;> try exact .panic
    refine (Shadows.of _ (Sim.mapEntries _ _ _)).bind fun m => ?_
    have hsim : Sim (do
        Verif.writeSeqLen e m.length
        forEachM (fun x : Val × Val => do
          setCurE .le
          Verif.encCore e k {} x.1
          if k.found x.1 then do
            setCurE .le
            Verif.encCore e t {} x.2
          else M.panic) m : EM Unit) :=
      (Sim.writeSeqLen _ _).bind fun _ => Sim.forEach (fun x =>
        (Sim.setCur _).bind fun _ => (Sim.encCore e k _ _).bind fun _ => by
          split
          · exact (Sim.setCur _).bind fun _ => Sim.encCore e t _ _
          · exact Sim.panic) _
    by_cases hp : tr = true ∧ e ≠ .borsh
    · refine ⟨hsim, fun s ns => Or.inr ⟨?_, s, ?_, List.prefix_refl _, hsim.grows s⟩⟩
      · rintro (h | h | h)
        · simp [hp.1] at h
        · exact hp.2 h
        · simp [Spec.mapless] at h
      · apply M.bind_panic
        simp [mapDebug, hp]
    · have hc : mapDebug tr e = Pure.pure () := if_neg hp
      rw [hc]
      have hcalm : ∀ b, Calm tr e b := by
        intro b
        cases tr with
        | false => exact Or.inl rfl
        | true => exact Or.inr (Or.inl (by simpa using hp))
      refine Shadows.named ((Shadows.of _ (Sim.writeSeqLen _ _)).bind fun _ => .forEach (fun x =>
        (Shadows.of _ (Sim.setCur _)).bind fun _ =>
          ((Shadows.encCore tr e k _ _).mono fun _ => hcalm _).bind fun _ => ?_) _) _ _
      split
      · exact (Shadows.of _ (Sim.setCur _)).bind fun _ => (Shadows.encCore tr e t _ _).mono fun _ => hcalm _
      · exact .panic
  | .struct fs, o, v => by
    cases v <;> simp only [Verif.encCore, encCoreTr] <;> try exact .panic
    exact .encStruct ((Shadows.encFields tr e fs _ _).mono (Calm.imp (by simp [Spec.mapless])))
      fun he i => Shadows.encNth tr e he fs i _
  | .iface, o, v => by
    cases v <;> simp only [Verif.encCore, encCoreTr] <;> first | exact .panic | exact .pure ()
  | .bool, o, v => by simp only [Verif.encCore, encCoreTr]; exact .of _ (Sim.encPlain _ _ _ _)
  | .uint w _, o, v => by simp only [Verif.encCore, encCoreTr]; exact .of _ (Sim.encPlain _ _ _ _)
  | .int w _, o, v => by simp only [Verif.encCore, encCoreTr]; exact .of _ (Sim.encPlain _ _ _ _)
  | .borshEnum, o, v => by simp only [Verif.encCore, encCoreTr]; exact .of _ (Sim.encPlain _ _ _ _)
  | .f32, o, v => by simp only [Verif.encCore, encCoreTr]; exact .of _ (Sim.encPlain _ _ _ _)
  | .f64, o, v => by simp only [Verif.encCore, encCoreTr]; exact .of _ (Sim.encPlain _ _ _ _)
  | .str, o, v => by simp only [Verif.encCore, encCoreTr]; exact .of _ (Sim.encPlain _ _ _ _)
  | .plainInt, _, _ => by simp only [Verif.encCore, encCoreTr]; exact .err _
  | .plainUint, _, _ => by simp only [Verif.encCore, encCoreTr]; exact .err _
  | .other, _, _ => by simp only [Verif.encCore, encCoreTr]; exact .err _
termination_by structural t => t
theorem Shadows.encFields (tr : Bool) (e : Encoding) : (fs : Fields) → (sm : List (Bytes × Int)) → (vs : List Val) →
    Shadows (Calm tr e (Spec.maplessF fs)) (encFieldsTr tr e fs sm vs) (encFields e fs sm vs)
  | .nil, _, _ => by simp only [Verif.encFields, encFieldsTr]; exact .pure ()
  | .cons _ _ _, _, [] => by simp only [Verif.encFields, encFieldsTr]; exact .panic
  | .cons m t fs, sm, v :: vs => by
    simp only [Verif.encFields, encFieldsTr]
    have hrest : ∀ sm, Shadows (Calm tr e (Spec.maplessF (.cons m t fs))) (encFieldsTr tr e fs sm vs) (Verif.encFields e fs sm vs) :=
      fun sm => (Shadows.encFields tr e fs sm vs).mono (Calm.imp (by simp [Spec.maplessF]))
    split
    · exact hrest _
    rename_i hs
    refine (Shadows.recordSize _ _ _ _).bind fun sm => ?_
    refine Shadows.ite ((Shadows.of _ (Sim.setCur _)).bind fun _ => (Shadows.of _ (Sim.encFlags _ _ _ _)).bind fun more => ?_) (hrest sm)
    refine Shadows.ite (((Shadows.encCore tr e t _ _).mono (Calm.imp ?_)).bind fun _ => hrest sm) (hrest sm)
    simp only [Spec.maplessF, Bool.and_eq_true, Bool.or_eq_true]
    rintro ⟨h | h, _⟩
    · exact absurd h hs
    · exact h
termination_by structural fs => fs
theorem Shadows.encNth (tr : Bool) (e : Encoding) (he : e = .borsh) {ok : Prop} : (fs : Fields) → (i : Nat) → (vs : List Val) →
    Shadows ok (encNthTr tr e fs i vs) (encNth e fs i vs)
  | .nil, i, vs => by simp only [Verif.encNth, encNthTr]; exact .panic
  | .cons _ t _, 0, [] => by simp only [Verif.encNth, encNthTr]; exact .panic
  | .cons _ t _, 0, v :: _ => by simp only [Verif.encNth, encNthTr]; exact Shadows.encPayload tr e he t v
  | .cons _ _ fs, i + 1, [] => by simp only [Verif.encNth, encNthTr]; exact .panic
  | .cons _ _ fs, i + 1, _ :: vs => by simp only [Verif.encNth, encNthTr]; exact Shadows.encNth tr e he fs i vs
termination_by structural fs => fs
theorem Shadows.encPayload (tr : Bool) (e : Encoding) (he : e = .borsh) {ok : Prop} : (t : Ty) → (v : Val) →
    Shadows ok (encPayloadTr tr e t v) (encPayload e t v)
  | .ptr t, v => by
    cases v <;> simp only [Verif.encPayload, encPayloadTr] <;> try exact .panic
    rename_i p
    cases p with
    | none => exact .pure ()
    | some x => exact Shadows.encVariant tr e he t x
  | .struct fs, v => by
    cases v <;> simp only [Verif.encPayload, encPayloadTr] <;> try exact .panic
    exact .encStruct ((Shadows.encFields tr e fs _ _).mono fun _ => Or.inr (Or.inl he)) fun he i => Shadows.encNth tr e he fs i _
  | .lib l, v => by simp only [Verif.encPayload, encPayloadTr]; exact .of _ (Sim.encLibPayload _ _ _)
  | .bool, v => by simp only [Verif.encPayload, encPayloadTr]; exact .scalarD
  | .uint _ _, v => by simp only [Verif.encPayload, encPayloadTr]; exact .scalarD
  | .int _ _, v => by simp only [Verif.encPayload, encPayloadTr]; exact .scalarD
  | .borshEnum, v => by simp only [Verif.encPayload, encPayloadTr]; exact .scalarD
  | .f32, v => by simp only [Verif.encPayload, encPayloadTr]; exact .scalarD
  | .f64, v => by simp only [Verif.encPayload, encPayloadTr]; exact .scalarD
  | .str, v => by simp only [Verif.encPayload, encPayloadTr]; exact .scalarD
  | .slice _, v => by simp only [Verif.encPayload, encPayloadTr]; exact .scalarD
  | .array _ _, v => by simp only [Verif.encPayload, encPayloadTr]; exact .scalarD
  | .map _ _, v => by simp only [Verif.encPayload, encPayloadTr]; exact .scalarD
  | .iface, v => by simp only [Verif.encPayload, encPayloadTr]; exact .scalarD
  | .plainInt, v => by simp only [Verif.encPayload, encPayloadTr]; exact .scalarD
  | .plainUint, v => by simp only [Verif.encPayload, encPayloadTr]; exact .scalarD
  | .other, v => by simp only [Verif.encPayload, encPayloadTr]; exact .scalarD
termination_by structural t => t
theorem Shadows.encVariant (tr : Bool) (e : Encoding) (he : e = .borsh) {ok : Prop} : (t : Ty) → (v : Val) →
    Shadows ok (encVariantTr tr e t v) (encVariant e t v)
  | .struct fs, v => by
    cases v <;> simp only [Verif.encVariant, encVariantTr] <;> try exact .panic
    exact .encStruct ((Shadows.encFields tr e fs _ _).mono fun _ => Or.inr (Or.inl he)) fun he i => Shadows.encNth tr e he fs i _
  | .lib l, v => by simp only [Verif.encVariant, encVariantTr]; exact .of _ (Sim.encLibPayload _ _ _)
  | .bool, v => by simp only [Verif.encVariant, encVariantTr]; exact .scalarD
  | .uint _ _, v => by simp only [Verif.encVariant, encVariantTr]; exact .scalarD
  | .int _ _, v => by simp only [Verif.encVariant, encVariantTr]; exact .scalarD
  | .borshEnum, v => by simp only [Verif.encVariant, encVariantTr]; exact .scalarD
  | .f32, v => by simp only [Verif.encVariant, encVariantTr]; exact .scalarD
  | .f64, v => by simp only [Verif.encVariant, encVariantTr]; exact .scalarD
  | .str, v => by simp only [Verif.encVariant, encVariantTr]; exact .scalarD
  | .slice _, v => by simp only [Verif.encVariant, encVariantTr]; exact .scalarD
  | .array _ _, v => by simp only [Verif.encVariant, encVariantTr]; exact .scalarD
  | .map _ _, v => by simp only [Verif.encVariant, encVariantTr]; exact .scalarD
  | .iface, v => by simp only [Verif.encVariant, encVariantTr]; exact .scalarD
  | .plainInt, v => by simp only [Verif.encVariant, encVariantTr]; exact .scalarD
  | .plainUint, v => by simp only [Verif.encVariant, encVariantTr]; exact .scalarD
  | .other, v => by simp only [Verif.encVariant, encVariantTr]; exact .scalarD
  | .ptr _, v => by simp only [Verif.encVariant, encVariantTr]; exact .scalarD
termination_by structural t => t
end
end

theorem Shadows.encode (tr : Bool) (t : Ty) (v : Val) (s : Enc) (ns : List LogName) :
    encodeTr tr t v ⟨s, ns⟩ = ((encode t v s).1, ⟨(encode t v s).2, ns⟩) ∨
    (¬ Calm tr s.enc (Spec.mapless t) ∧ ∃ s', encodeTr tr t v ⟨s, ns⟩ = (.panic, ⟨s', ns⟩) ∧ s.log <+: s'.log ∧
      s'.log <+: (encode t v s).2.log) := by
  by_cases h : s.enc = .other
  · left
    simp [encodeTr, Verif.encode, M.bind_apply, h]
  · have h1 : encodeTr tr t v ⟨s, ns⟩ = (onEnc (setCurE .le) >>= fun _ => encCoreTr tr s.enc t {} v) ⟨s, ns⟩ := by
      unfold encodeTr; rw [M.bind_ok (M.get_apply _)]; simp [h]
    have h2 : Verif.encode t v s = (setCurE .le >>= fun _ => Verif.encCore s.enc t {} v) s := by
      unfold Verif.encode; rw [M.bind_ok (M.get_apply _)]; simp [h]
    rw [h1, h2]
    exact ((Shadows.of _ (Sim.setCur _)).bind fun _ => Shadows.encCore tr s.enc t {} v).rel s ns

/-! ### when the write is fine without tracing -/

/-- Where the plain call returns, the traced one panics if `b` and returns the same otherwise. -/
def Fate {α : Type} (b : Bool) (mT : M Traced α) (m : EM α) : Prop :=
  ∀ s ns a s', m s = (.ok a, s') → (b = true → (mT ⟨s, ns⟩).1 = .panic) ∧ (b = false → mT ⟨s, ns⟩ = (.ok a, ⟨s', ns⟩))

namespace Fate
variable {α β : Type}

theorem of (m : EM α) : Fate false (onEnc m) m := by
  intro s ns a s' h
  refine ⟨by simp, fun _ => ?_⟩
  unfold onEnc
  rw [h]

theorem pure (a : α) : Fate false (Pure.pure a) (Pure.pure a) := by
  intro s ns b s' h
  refine ⟨by simp, fun _ => ?_⟩
  simp only [M.pure_apply, Prod.mk.injEq, Res.ok.injEq] at h ⊢
  exact ⟨h.1, by rw [h.2]⟩

theorem err {b : Bool} {mT : M Traced α} (e : Err) : Fate b mT (M.err e) := by intro s ns a s' h; simp at h
theorem panic {b : Bool} {mT : M Traced α} : Fate b mT M.panic := by intro s ns a s' h; simp at h

theorem bind' {mT : M Traced α} {m : EM α} {fT : α → M Traced β} {f : α → EM β} {b : Bool} {g : α → Bool} (h : Fate b mT m)
    (hf : ∀ a, Fate (g a) (fT a) (f a)) {c : Bool} (hc : ∀ s a s', m s = (.ok a, s') → c = (b || g a)) : Fate c (mT >>= fT) (m >>= f) := by
  intro s ns a s' he
  rcases hm : m s with ⟨r, s₁⟩
  cases r with
  | ok x =>
    rw [M.bind_ok hm] at he
    obtain ⟨h1, h2⟩ := h s ns x s₁ hm
    obtain ⟨h3, h4⟩ := hf x s₁ ns a s' he
    rw [hc s x s₁ hm]
    cases b with
    | true =>
      refine ⟨fun _ => ?_, by simp⟩
      have h1 := h1 rfl
      rcases hT : mT ⟨s, ns⟩ with ⟨r, s₂⟩
      rw [hT] at h1
      simp only at h1
      subst h1
      rw [M.bind_panic hT]
    | false =>
      rw [M.bind_ok (h2 rfl)]
      simpa using ⟨h3, h4⟩
  | err e => rw [M.bind_err hm] at he; simp at he
  | panic => rw [M.bind_panic hm] at he; simp at he

theorem bind {mT : M Traced α} {m : EM α} {fT : α → M Traced β} {f : α → EM β} {b c : Bool} (h : Fate b mT m)
    (hf : ∀ a, Fate c (fT a) (f a)) : Fate (b || c) (mT >>= fT) (m >>= f) := h.bind' hf fun _ _ _ _ => rfl

theorem named {mT : M Traced α} {m : EM α} {b : Bool} (h : Fate b mT m) (tr : Bool) (n : LogName) : Fate b (named tr n mT) m := by
  intro s ns a s' he
  unfold Verif.named
  cases tr with
  | false => exact h s ns a s' he
  | true =>
    obtain ⟨h1, h2⟩ := h s (ns ++ [n]) a s' he
    refine ⟨fun hb => by simpa using h1 hb, fun hb => ?_⟩
    simp [h2 hb]

theorem forIndex {γ : Type} {fT : γ → M Traced Unit} {f : γ → EM Unit} {g : γ → Bool} (hf : ∀ a, Fate (g a) (fT a) (f a)) (n : Nat)
    (xs : List γ) : Fate ((xs.take n).any g) (forIndexM fT n xs) (forIndexM f n xs) := by
  induction n generalizing xs with
  | zero => exact pure ()
  | succ n ih =>
    cases xs with
    | nil => exact panic
    | cons x xs => exact (hf x).bind fun _ => ih xs

end Fate

theorem Spec.sizes_eq {m : FieldMeta} {t : Ty} {v : Val} {sm sm' : List (Bytes × Int)} {σ : Type} {s s' : σ}
    (h : recordSize m t v sm s = (.ok sm', s')) : sm' = Spec.sizes m t v sm ∧ s' = s := by
  unfold recordSize at h
  unfold Spec.sizes
  split at h
  · rename_i hs
    simp only [M.pure_apply, Prod.mk.injEq, Res.ok.injEq] at h
    simp [hs, h]
  · rename_i hs
    rw [if_neg hs]
    cases hz : sizeofVal t.kind v with
    | ok n =>
      rw [M.bind_ok (a := n) (s' := s) (by simp [hz])] at h
      simp only [M.pure_apply, Prod.mk.injEq, Res.ok.injEq] at h
      exact ⟨h.1.symm, h.2.symm⟩
    | err e => rw [M.bind_err (e := e) (s' := s) (by simp [hz])] at h; simp at h
    | panic => rw [M.bind_panic (s' := s) (by simp [hz])] at h; simp at h

theorem Fate.recordSize (m : FieldMeta) (t : Ty) (v : Val) (sm : List (Bytes × Int)) :
    Fate false (recordSize m t v sm : M Traced _) (Verif.recordSize m t v sm) := by
  intro s ns a s' h
  refine ⟨by simp, fun _ => ?_⟩
  unfold Verif.recordSize at h ⊢
  split at h
  · rename_i hs
    simp only [M.pure_apply, Prod.mk.injEq, Res.ok.injEq] at h
    simp [hs, h]
  · rename_i hs
    rw [if_neg hs]
    cases hz : sizeofVal t.kind v with
    | ok n =>
      rw [M.bind_ok (a := n) (s' := s) (by simp [hz])] at h
      rw [M.bind_ok (a := n) (s' := ⟨s, ns⟩) (by simp [hz])]
      simp only [M.pure_apply, Prod.mk.injEq, Res.ok.injEq] at h ⊢
      exact ⟨h.1, by rw [h.2]⟩
    | err e => rw [M.bind_err (e := e) (s' := s) (by simp [hz])] at h; simp at h
    | panic => rw [M.bind_panic (s' := s) (by simp [hz])] at h; simp at h

/-- Bin and CompactU16: the flag is followed by the value unless the field is optional and zero. -/
theorem encFlags_more {e : Encoding} (he : e ≠ .borsh) {t : Ty} {o : Opt} {v : Val} {s s' : Enc} {b : Bool}
    (h : encFlags e t o v s = (.ok b, s')) : b = !(o.optional && t.isZero v) := by
  unfold encFlags at h
  split at h
  · rename_i hz
    rcases hw : writeFlag e false s with ⟨r, s₁⟩
    cases r with
    | ok _ =>
      rw [M.bind_ok hw] at h
      simp only [M.pure_apply, Prod.mk.injEq, Res.ok.injEq] at h
      simp [hz, ← h.1]
    | err _ => rw [M.bind_err hw] at h; simp at h
    | panic => rw [M.bind_panic hw] at h; simp at h
  · rename_i hz
    have hz' : (o.optional && t.isZero v) = false := by
      cases h1 : o.optional <;> cases h2 : t.isZero v <;> simp_all
    simp only [he, false_and, if_false] at h
    rw [hz']
    cases ho : o.optional with
    | false => simp [ho] at h; simp [← h.1]
    | true =>
      simp only [ho, if_true] at h
      rcases hw : writeFlag e true s with ⟨r, s₁⟩
      cases r with
      | ok _ =>
        rw [M.bind_ok hw] at h
        simp only [M.pure_apply, Prod.mk.injEq, Res.ok.injEq] at h
        simp [← h.1]
      | err _ => rw [M.bind_err hw] at h; simp at h
      | panic => rw [M.bind_panic hw] at h; simp at h

theorem Ty.meets_of_uint {t : Ty} {w : Width} (h : t.uintKind = some w) (o : Option Int) (v : Val) : Spec.meets t o v = false := by
  cases t <;> first | (simp [Ty.uintKind, Ty.kind] at h; done) | (cases v <;> rfl)

mutual
theorem Fate.encCore (e : Encoding) (he : e ≠ .borsh) : (t : Ty) → (o : Opt) → (v : Val) →
    Fate (Spec.meets t o.sizeOf v) (encCoreTr true e t o v) (encCore e t o v)
  | .lib l, o, v => by simp only [Verif.encCore, encCoreTr, Spec.meets]; exact .of _
  | .ptr t, o, v => by
    cases v <;> simp only [Verif.encCore, encCoreTr] <;> try exact .panic
    rename_i p
    cases hl : t.asLib with
    | some l =>
      have ht : ∀ x, Spec.meets (.ptr t) o.sizeOf (.ptr x) = false := by
        intro x
        cases t <;> simp [Ty.asLib] at hl
        cases x <;> rfl
      rw [ht]
      cases p with
      | some x => exact .of _
      | none =>
        simp only
        split
        · exact .pure ()
        · exact .panic
    | none =>
      simp only [if_neg he]
      cases p with
      | none => exact (Fate.of _).bind fun _ => .pure ()
      | some x =>
        have := (Fate.of (setCurE o.order)).bind fun _ => Fate.encCore e he t o x
        simpa [Spec.meets] using this
  | .slice t, o, v => by
    cases v <;> simp only [Verif.encCore, encCoreTr] <;> try exact .panic
    rename_i xs
    have hb : ∀ l : Int, Fate (((xs.getD []).take l.toNat).any fun x => Spec.meets t none x) (Verif.named true .slice (match t.uintKind with
      | some w => onEnc (Verif.writeUints l w (xs.getD []))
      | none => forIndexM (fun x => do onEnc (setCurE .le); encCoreTr true e t {} x) l.toNat (xs.getD [])))
      (match t.uintKind with
      | some w => Verif.writeUints l w (xs.getD [])
      | none => forIndexM (fun x => do setCurE .le; Verif.encCore e t {} x) l.toNat (xs.getD [])) := by
      intro l
      apply Fate.named
      cases hk : t.uintKind with
      | some w =>
        have : ((xs.getD []).take l.toNat).any (fun x => Spec.meets t none x) = false := by simp [Ty.meets_of_uint hk]
        rw [this]
        exact .of _
      | none =>
        exact .forIndex (g := fun x => Spec.meets t none x) (fun x => by
          have := (Fate.of (setCurE .le)).bind fun _ => Fate.encCore e he t {} x
          simpa using this) _ _
    cases hs : o.sizeOf with
    | some s => simp only [Spec.meets, Option.getD_some]; exact hb s
    | none =>
      have := (Fate.of (Verif.writeSeqLen e (xs.getD []).length)).bind fun _ => hb ((xs.getD []).length : Int)
      rw [Bool.false_or] at this
      simp only [Spec.meets, Option.getD_none]
      exact this
  | .array n t, o, v => by
    cases v <;> simp only [Verif.encCore, encCoreTr] <;> try exact .panic
    rename_i xs
    apply Fate.named
    cases hk : t.uintKind with
    | some w =>
      have : Spec.meets (.array n t) o.sizeOf (.arr xs) = false := by simp [Spec.meets, Ty.meets_of_uint hk]
      rw [this]
      exact .of _
    | none =>
      exact .forIndex (g := fun x => Spec.meets t none x) (fun x => by
        have := (Fate.of (setCurE .le)).bind fun _ => Fate.encCore e he t {} x
        simpa using this) _ _
  | .map k t, o, v => by
    cases v <;> simp only [Verif.encCore, encCoreTr] <;> try exact .panic
    rename_i m
    intro s ns a s' _
    refine ⟨fun _ => ?_, by simp [Spec.meets]⟩
    have hm : Verif.mapEntries e k (m.getD []) = Pure.pure (m.getD []) := if_neg he
    have h1 : onEnc (Verif.mapEntries e k (m.getD [])) ⟨s, ns⟩ = (.ok (m.getD []), ⟨s, ns⟩) := by rw [hm]; rfl
    have h2 : mapDebug true e ⟨s, ns⟩ = (.panic, ⟨s, ns⟩) := by simp [mapDebug, he]
    rw [M.bind_ok h1, M.bind_panic h2]
  | .struct fs, o, v => by
    cases v <;> simp only [Verif.encCore, encCoreTr] <;> try exact .panic
    simp only [encStructTr, Verif.encStruct, he, false_and, if_false, Spec.meets]
    exact Fate.encFields e he fs _ _
  | .iface, o, v => by
    cases v <;> simp only [Verif.encCore, encCoreTr] <;> first | exact .panic | exact .pure ()
  | .bool, o, v => by simp only [Verif.encCore, encCoreTr, Spec.meets]; exact .of _
  | .uint w _, o, v => by simp only [Verif.encCore, encCoreTr, Spec.meets]; exact .of _
  | .int w _, o, v => by simp only [Verif.encCore, encCoreTr, Spec.meets]; exact .of _
  | .borshEnum, o, v => by simp only [Verif.encCore, encCoreTr, Spec.meets]; exact .of _
  | .f32, o, v => by simp only [Verif.encCore, encCoreTr, Spec.meets]; exact .of _
  | .f64, o, v => by simp only [Verif.encCore, encCoreTr, Spec.meets]; exact .of _
  | .str, o, v => by simp only [Verif.encCore, encCoreTr, Spec.meets]; exact .of _
  | .plainInt, _, _ => by simp only [Verif.encCore, encCoreTr]; exact .err _
  | .plainUint, _, _ => by simp only [Verif.encCore, encCoreTr]; exact .err _
  | .other, _, _ => by simp only [Verif.encCore, encCoreTr]; exact .err _
termination_by structural t => t
theorem Fate.encFields (e : Encoding) (he : e ≠ .borsh) : (fs : Fields) → (sm : List (Bytes × Int)) → (vs : List Val) →
    Fate (Spec.meetsF fs sm vs) (encFieldsTr true e fs sm vs) (encFields e fs sm vs)
  | .nil, _, _ => by simp only [Verif.encFields, encFieldsTr, Spec.meetsF]; exact .pure ()
  | .cons _ _ _, _, [] => by simp only [Verif.encFields, encFieldsTr]; exact .panic
  | .cons m t fs, sm, v :: vs => by
    simp only [Verif.encFields, encFieldsTr, Spec.meetsF]
    split
    · exact Fate.encFields e he fs sm vs
    refine (Fate.recordSize m t v sm).bind' (g := fun sm' => (m.exported && !(m.tag.option && t.isZero v) &&
      Spec.meets t (lookupSize m.name sm') v) || Spec.meetsF fs sm' vs) (fun sm' => ?_) fun s a s' h => ?_
    · cases hx : m.exported with
      | false => simpa using Fate.encFields e he fs sm' vs
      | true =>
        simp only [if_true, Bool.true_and]
        refine (Fate.of (setCurE m.tag.order)).bind' (g := fun _ => !(m.tag.option && t.isZero v) &&
          Spec.meets t (lookupSize m.name sm') v || Spec.meetsF fs sm' vs) (fun _ => ?_) fun _ _ _ _ => by simp
        refine (Fate.of (Verif.encFlags e t (fieldOpt m sm') v)).bind' (g := fun more => more &&
          Spec.meets t (lookupSize m.name sm') v || Spec.meetsF fs sm' vs) (fun more => ?_) fun s a s' h => ?_
        · cases more with
          | false => simpa using Fate.encFields e he fs sm' vs
          | true =>
            have := (Fate.encCore e he t (fieldOpt m sm') v).bind fun _ => Fate.encFields e he fs sm' vs
            simpa [fieldOpt] using this
        · have := encFlags_more he h
          rw [this]; simp [fieldOpt]
    · rw [(Spec.sizes_eq h).1]; simp
termination_by structural fs => fs
end

end Verif
