import Verif.Proofs.ReportFacts
import Verif.Spec.Reports
/-! Every error names a path of the type. -/
set_option linter.unusedSimpArgs false
namespace Verif
open Spec T

abbrev On {σ α : Type} (Q : List Bytes → Prop) (x : T σ α) : Prop := Errs (fun r => Q r.fields) x

section
variable {σ α β : Type} {Q Q' : List Bytes → Prop}

theorem onOf (h : Q []) (m : M σ α) : On Q (T.of m) := Errs.of (fun _ => h) m
theorem On.mono {x : T σ α} (h : On Q x) (hq : ∀ p, Q p → Q' p) : On Q' x := fun s r s' hx => hq _ (h s r s' hx)
theorem onSetE (o : Order) : On Q (T.of (setCurE o)) := Errs.never fun _ _ _ h => by cases h
theorem onSetD (o : Order) : On Q (T.of (setCurD o)) := Errs.never fun _ _ _ h => by cases h
theorem onGet : On Q (T.of (M.get : M σ σ)) := Errs.never fun _ _ _ h => by cases h
theorem onPanic : On Q (T.of (M.panic : M σ α)) := Errs.never fun _ _ _ h => by cases h
theorem onRecord (m : FieldMeta) (t : Ty) (v : Val) (sm : List (Bytes × Int)) : On Q (T.of (recordSize m t v sm : M σ _)) := by
  refine Errs.never fun s x s' h => ?_
  rcases recordSize_cases m t v sm s with hr | ⟨sm', hr, -⟩
  · rw [hr] at h; cases h
  · rw [hr s] at h; cases h
end

theorem uintKind_named {e : Encoding} {dec : Bool} {t : Ty} {w : Width} (h : t.uintKind = some w) : Named e dec t [] := by
  cases t <;> simp [Ty.uintKind, Ty.kind] at h <;> simp [Named]

theorem encStructT_on {e : Encoding} {fs : Fields} {vs : List Val} {a : T Enc Unit} {b : Nat → T Enc Unit}
    (ha : On (NamedField e false fs) a) (hb : ∀ i, On (fun p => p = [] ∨ NamedVariant e false fs p) (b i)) :
    On (Named e false (.struct fs)) (encStructT e fs vs a b) := by
  unfold encStructT
  by_cases h : e = .borsh ∧ fs.isEnum
  · rw [if_pos h]
    have hq : Named e false (.struct fs) = fun p => p = [] ∨ NamedVariant e false fs p := by
      funext p; simp only [Named, if_pos h]
    rw [hq]
    split
    · exact (onOf (Q := fun p => p = [] ∨ NamedVariant e false fs p) (.inl rfl) _).bind fun _ =>
        Errs.ite (onOf (Q := fun p => p = [] ∨ NamedVariant e false fs p) (.inl rfl) _) (hb _)
    · exact onPanic
  · rw [if_neg h]
    refine ha.mono fun p hp => ?_
    simp only [Named, if_neg h]
    exact hp

/-- Encoding an enum payload: a path of its type, or the halves of a 128-bit integer. -/
def OnPayload (e : Encoding) (t : Ty) (p : List Bytes) : Prop :=
  p = [] ∨ Named e false t p ∨ (t.baseLib = true ∧ (p = [[76, 111]] ∨ p = [[72, 105]]))

theorem encLibPayloadT_on (e : Encoding) (l : Lib) (v : Val) : On (OnPayload e (.lib l)) (encLibPayloadT e l v) := by
  have hb : (Ty.lib l).baseLib = true := rfl
  have h : On (OnPayload e (.lib l)) (encU128FieldsT v) := by
    cases v <;> simp only [encU128FieldsT] <;> first
      | exact onPanic
      | exact (Errs.inField (Q := fun r => r.fields = []) (Errs.of (fun _ => rfl) _) fun r h => .inr (.inr ⟨hb, .inl (by simp [h])⟩)).bind
          fun _ => (Errs.inField (Q := fun r => r.fields = []) (Errs.of (fun _ => rfl) _) fun r h =>
            .inr (.inr ⟨hb, .inr (by simp [h])⟩)).bind fun _ => onSetE _
  cases l <;> simp only [encLibPayloadT] <;> first
    | exact h
    | exact onOf (.inl rfl) _

theorem fieldOpt_flags {m : FieldMeta} {e : Encoding} {t : Ty} {sm : List (Bytes × Int)} {v : Val}
    {s : Enc} {x : Err} {s' : Enc} (h : encFlags e t (fieldOpt m sm) v s = (.err x, s')) : m.tag.option = true ∨ m.tag.coption = true := by
  by_cases h1 : m.tag.option = true
  · exact .inl h1
  · by_cases h2 : m.tag.coption = true
    · exact .inr h2
    · exfalso
      unfold encFlags at h
      simp only [fieldOpt, h1, h2] at h
      simp at h

mutual
theorem encT_on (e : Encoding) : (t : Ty) → (o : Opt) → (v : Val) → On (Named e false t) (encT e t o v)
  | .ptr t, o, v => by
    cases v with
    | ptr p =>
      simp only [encT]
      have hn : Named e false (.ptr t) = Named e false t := by funext p; simp only [Named]
      rw [hn]
      cases h : t.asLib with
      | some l => exact onOf (by cases t <;> simp [Ty.asLib] at h <;> simp [Named]) _
      | none =>
        refine Errs.ite ((onSetE _).bind fun _ => encT_on e t _ _) ((onSetE _).bind fun _ => ?_)
        cases p with
        | none => exact Errs.pure _
        | some x => exact encT_on e t _ _
    | _ => simp only [encT, encCore]; exact onPanic
  | .slice t, o, v => by
    have h0 : Named e false (.slice t) [] := by simp [Named]
    have h1 : ∀ p, Named e false t p → Named e false (.slice t) p := fun p h => by simp only [Named]; exact .inr h
    cases v with
    | seq xs =>
      simp only [encT]
      refine (onOf h0 _).bind fun l => ?_
      cases t.uintKind with
      | some w => exact onOf h0 _
      | none => exact Errs.forIndex (fun x => (onSetE _).bind fun _ => (encT_on e t _ _).mono h1) _ _
    | _ => exact onOf h0 _
  | .array n t, o, v => by
    have h1 : ∀ p, Named e false t p → Named e false (.array n t) p := fun p h => by simp only [Named]; exact h
    cases v with
    | arr xs =>
      simp only [encT]
      cases hk : t.uintKind with
      | some w => exact onOf (h1 _ (uintKind_named hk)) _
      | none => exact Errs.forIndex (fun x => (onSetE _).bind fun _ => (encT_on e t _ _).mono h1) _ _
    | _ => simp only [encT, encCore]; exact onPanic
  | .map k t, o, v => by
    have h0 : Named e false (.map k t) [] := by simp [Named]
    have h1 : ∀ p, Named e false k p → Named e false (.map k t) p := fun p h => by simp only [Named]; exact .inr (.inl h)
    have h2 : ∀ p, Named e false t p → Named e false (.map k t) p := fun p h => by simp only [Named]; exact .inr (.inr h)
    cases v with
    | map m =>
      simp only [encT]
      exact (onOf h0 _).bind fun m => (onOf h0 _).bind fun _ => Errs.forEach (fun x =>
        (onOf h0 _).bind fun _ => ((encT_on e k _ _).mono h1).bind fun _ =>
          Errs.ite ((onOf h0 _).bind fun _ => (encT_on e t _ _).mono h2) (onOf h0 _)) _
    | _ => exact onOf h0 _
  | .struct fs, o, v => by
    cases v with
    | struct vs => simp only [encT]; exact encStructT_on (encFieldsT_on e fs _ _) fun i => encNthT_on e fs i vs
    | _ => simp only [encT, encCore]; exact onPanic
  | .lib l, o, v => by simp only [encT]; exact onOf (by simp [Named]) _
  | .bool, o, v => by simp only [encT]; exact onOf (by simp [Named]) _
  | .uint w b, o, v => by simp only [encT]; exact onOf (by simp [Named]) _
  | .int w b, o, v => by simp only [encT]; exact onOf (by simp [Named]) _
  | .borshEnum, o, v => by simp only [encT]; exact onOf (by simp [Named]) _
  | .f32, o, v => by simp only [encT]; exact onOf (by simp [Named]) _
  | .f64, o, v => by simp only [encT]; exact onOf (by simp [Named]) _
  | .str, o, v => by simp only [encT]; exact onOf (by simp [Named]) _
  | .plainInt, o, v => by simp only [encT]; exact onOf (by simp [Named]) _
  | .plainUint, o, v => by simp only [encT]; exact onOf (by simp [Named]) _
  | .other, o, v => by simp only [encT]; exact onOf (by simp [Named]) _
  | .iface, o, v => by simp only [encT]; exact onOf (by simp [Named]) _
theorem encFieldsT_on (e : Encoding) : (fs : Fields) → (sm : List (Bytes × Int)) → (vs : List Val) →
    On (NamedField e false fs) (encFieldsT e fs sm vs)
  | .nil, _, _ => by simp only [encFieldsT]; exact Errs.pure _
  | .cons _ _ _, _, [] => by simp only [encFieldsT]; exact onPanic
  | .cons m t fs, sm, v :: vs => by
    have h : ∀ sm, On (NamedField e false (.cons m t fs)) (encFieldsT e fs sm vs) := fun sm =>
      (encFieldsT_on e fs sm vs).mono fun p hp => by simp only [NamedField]; exact .inl hp
    simp only [encFieldsT]
    by_cases hs : m.tag.skip = true
    · rw [if_pos hs]; exact h sm
    · rw [if_neg hs]
      refine (onRecord _ _ _ _).bind fun sm => ?_
      by_cases hx : m.exported = true
      · rw [if_pos hx]
        refine Errs.bind ?_ fun _ => h sm
        refine Errs.inField (Q := fun r => Named e false t r.fields ∨ (r.fields = [] ∧ (m.tag.option = true ∨ m.tag.coption = true)))
          ?_ fun r hr => ?_
        · refine (onSetE (Q := fun p => Named e false t p ∨ (p = [] ∧ (m.tag.option = true ∨ m.tag.coption = true))) _).bind fun _ =>
            Errs.bind ?_ fun more => Errs.ite (On.mono (Q' := fun p => Named e false t p ∨
              (p = [] ∧ (m.tag.option = true ∨ m.tag.coption = true))) (encT_on e t _ _) fun p hp => .inl hp) (Errs.pure _)
          intro s r s' hh
          unfold T.of at hh
          rcases hq : encFlags e t (fieldOpt m sm) v s with ⟨q, s1⟩
          rw [hq] at hh
          cases q with
          | ok a => cases hh
          | panic => cases hh
          | err x =>
            cases hh
            exact .inr ⟨rfl, fieldOpt_flags hq⟩
        · simp only [NamedField]
          refine .inr ⟨by simpa using hs, hx, ?_⟩
          rw [if_neg (by simp)]
          exact ⟨r.fields, rfl, hr⟩
      · rw [if_neg hx]; exact h sm
theorem encNthT_on (e : Encoding) : (fs : Fields) → (i : Nat) → (vs : List Val) →
    On (fun p => p = [] ∨ NamedVariant e false fs p) (encNthT e fs i vs)
  | .cons m t fs, 0, v :: _ => by
    simp only [encNthT]
    refine (encPayloadT_on e t v).mono fun p hp => ?_
    rcases hp with hp | hp | hp
    · exact .inl hp
    · right; simp only [NamedVariant]; exact .inr (.inl hp)
    · right; simp only [NamedVariant]; exact .inr (.inr ⟨trivial, hp⟩)
  | .cons m t fs, i + 1, _ :: vs => by
    simp only [encNthT]
    refine (encNthT_on e fs i vs).mono fun p hp => ?_
    rcases hp with hp | hp
    · exact .inl hp
    · right; simp only [NamedVariant]; exact .inl hp
  | .nil, _, _ => by simp only [encNthT]; exact onPanic
  | .cons _ _ _, 0, [] => by simp only [encNthT]; exact onPanic
  | .cons _ _ _, _ + 1, [] => by simp only [encNthT]; exact onPanic
theorem encPayloadT_on (e : Encoding) : (t : Ty) → (v : Val) → On (OnPayload e t) (encPayloadT e t v)
  | .ptr t, v => by
    cases v with
    | ptr p =>
      cases p with
      | none => simp only [encPayloadT]; exact Errs.pure _
      | some x =>
        simp only [encPayloadT]
        refine (encVariantT_on e t x).mono fun p hp => ?_
        rcases hp with hp | hp | hp
        · exact .inl hp
        · right; left; simp only [Named]; exact hp
        · right; right; simpa [Ty.baseLib] using hp
    | _ => simp only [encPayloadT]; exact onOf (.inl rfl) _
  | .struct fs, v => by
    cases v with
    | struct vs =>
      simp only [encPayloadT]
      exact (encStructT_on (encFieldsT_on e fs _ _) fun i => encNthT_on e fs i vs).mono fun p hp => .inr (.inl hp)
    | _ => simp only [encPayloadT]; exact onOf (.inl rfl) _
  | .lib l, v => by simp only [encPayloadT]; exact encLibPayloadT_on e l v
  | .bool, v => by simp only [encPayloadT]; exact onOf (.inl rfl) _
  | .uint w b, v => by simp only [encPayloadT]; exact onOf (.inl rfl) _
  | .int w b, v => by simp only [encPayloadT]; exact onOf (.inl rfl) _
  | .borshEnum, v => by simp only [encPayloadT]; exact onOf (.inl rfl) _
  | .f32, v => by simp only [encPayloadT]; exact onOf (.inl rfl) _
  | .f64, v => by simp only [encPayloadT]; exact onOf (.inl rfl) _
  | .str, v => by simp only [encPayloadT]; exact onOf (.inl rfl) _
  | .plainInt, v => by simp only [encPayloadT]; exact onOf (.inl rfl) _
  | .plainUint, v => by simp only [encPayloadT]; exact onOf (.inl rfl) _
  | .other, v => by simp only [encPayloadT]; exact onOf (.inl rfl) _
  | .iface, v => by simp only [encPayloadT]; exact onOf (.inl rfl) _
  | .slice _, v => by simp only [encPayloadT]; exact onOf (.inl rfl) _
  | .array _ _, v => by simp only [encPayloadT]; exact onOf (.inl rfl) _
  | .map _ _, v => by simp only [encPayloadT]; exact onOf (.inl rfl) _
theorem encVariantT_on (e : Encoding) : (t : Ty) → (v : Val) → On (OnPayload e t) (encVariantT e t v)
  | .struct fs, v => by
    cases v with
    | struct vs =>
      simp only [encVariantT]
      exact (encStructT_on (encFieldsT_on e fs _ _) fun i => encNthT_on e fs i vs).mono fun p hp => .inr (.inl hp)
    | _ => simp only [encVariantT]; exact onOf (.inl rfl) _
  | .lib l, v => by simp only [encVariantT]; exact encLibPayloadT_on e l v
  | .bool, v => by simp only [encVariantT]; exact onOf (.inl rfl) _
  | .uint w b, v => by simp only [encVariantT]; exact onOf (.inl rfl) _
  | .int w b, v => by simp only [encVariantT]; exact onOf (.inl rfl) _
  | .borshEnum, v => by simp only [encVariantT]; exact onOf (.inl rfl) _
  | .f32, v => by simp only [encVariantT]; exact onOf (.inl rfl) _
  | .f64, v => by simp only [encVariantT]; exact onOf (.inl rfl) _
  | .str, v => by simp only [encVariantT]; exact onOf (.inl rfl) _
  | .plainInt, v => by simp only [encVariantT]; exact onOf (.inl rfl) _
  | .plainUint, v => by simp only [encVariantT]; exact onOf (.inl rfl) _
  | .other, v => by simp only [encVariantT]; exact onOf (.inl rfl) _
  | .iface, v => by simp only [encVariantT]; exact onOf (.inl rfl) _
  | .slice _, v => by simp only [encVariantT]; exact onOf (.inl rfl) _
  | .array _ _, v => by simp only [encVariantT]; exact onOf (.inl rfl) _
  | .map _ _, v => by simp only [encVariantT]; exact onOf (.inl rfl) _
  | .ptr t, v => by simp only [encVariantT]; exact onOf (.inl rfl) _
end

theorem unmarshalLibT_on {Q : List Bytes → Prop} (h : Q []) (l : Lib) (old : Val) : On Q (unmarshalLibT l old) := by
  unfold unmarshalLibT
  split <;> first
    | exact Errs.asText (onOf h _) fun _ h => h
    | exact onOf h _

theorem decStructT_on {e : Encoding} {fs : Fields} {a : T Dec (List Val)} {b : Nat → T Dec (List Val)}
    (ha : On (NamedField e true fs) a) (hb : ∀ i, On (fun p => p = [] ∨ NamedVariant e true fs p) (b i)) :
    On (Named e true (.struct fs)) (decStructT e fs a b) := by
  unfold decStructT
  by_cases h : e = .borsh ∧ fs.isEnum
  · rw [if_pos h]
    have hq : Named e true (.struct fs) = fun p => p = [] ∨ NamedVariant e true fs p := by
      funext p; simp only [Named, if_pos h]
    rw [hq]
    exact (onOf (Q := fun p => p = [] ∨ NamedVariant e true fs p) (.inl rfl) _).bind fun _ =>
      Errs.ite (onOf (Q := fun p => p = [] ∨ NamedVariant e true fs p) (.inl rfl) _) ((hb _).bind fun _ => Errs.pure _)
  · rw [if_neg h]
    refine (ha.mono fun p hp => ?_).bind fun _ => Errs.pure _
    simp only [Named, if_neg h]
    exact hp

theorem decFieldT_on {e : Encoding} {t : Ty} {o : Opt} {old : Val} {core : T Dec Val} {Q : List Bytes → Prop} (h : On Q core)
    (hf : o.optional = true ∨ o.coptional = true → Q []) : On Q (decFieldT e t o old core) := by
  unfold decFieldT
  refine (onSetD _).bind fun _ => ?_
  have hc : o.coptional = true → On Q ((T.of readCOption).asText) := fun hc => Errs.asText (onOf (hf (.inr hc)) _) fun _ h => h
  by_cases ho : o.optional = true
  · rw [if_pos ho]
    refine Errs.ite onPanic (Errs.bind (Errs.asText (onOf (hf (.inl ho)) _) fun _ h => h) fun present => Errs.ite ?_ (Errs.pure _))
    by_cases hb : e = .borsh ∧ o.coptional = true
    · rw [if_pos hb]
      exact Errs.ite onPanic ((hc hb.2).bind fun _ => Errs.ite h (Errs.pure _))
    · rw [if_neg hb]; exact h
  · rw [if_neg ho]
    by_cases hb : e = .borsh ∧ o.coptional = true
    · rw [if_pos hb]
      exact Errs.ite onPanic ((hc hb.2).bind fun _ => Errs.ite h (Errs.pure _))
    · rw [if_neg hb]; exact h

theorem onExtension {Q : List Bytes → Prop} (m : FieldMeta) : On Q (T.of (extensionEnds m)) := by
  refine Errs.never fun s x s' h => ?_
  unfold extensionEnds at h
  split at h
  · have hr : (∃ b, restM s = (.ok b, s)) ∨ restM s = (.panic, s) := by
      unfold restM
      split
      · exact .inl ⟨_, rfl⟩
      · exact .inr rfl
    unfold noBytesLeft at h
    rcases hr with ⟨b, hr⟩ | hr
    · rw [M.bind_ok hr] at h; cases h
    · rw [M.bind_panic hr] at h; cases h
  · cases h

mutual
theorem decT_on (e : Encoding) : (t : Ty) → (o : Opt) → (old : Val) → On (Named e true t) (decT e t o old)
  | .ptr t, o, v => by
    have hn : Named e true (.ptr t) = Named e true t := by funext p; simp only [Named]
    rw [hn]
    simp only [decT]
    exact (decT_on e t _ _).bind fun _ => Errs.pure _
  | .slice t, o, v => by
    have h0 : Named e true (.slice t) [] := by simp [Named]
    have h1 : ∀ p, Named e true t p → Named e true (.slice t) p := fun p h => by simp only [Named]; exact .inr h
    simp only [decT]
    refine (onOf h0 _).bind fun l => Errs.ite (Errs.pure _) ((onOf h0 _).bind fun d => Errs.ite (onOf h0 _) ?_)
    cases t.uintKind with
    | some w => exact (onOf h0 _).bind fun _ => Errs.pure _
    | none => exact (Errs.repeat ((onSetD _).bind fun _ => (decT_on e t _ _).mono h1) _).bind fun _ => Errs.pure _
  | .array n t, o, v => by
    have h1 : ∀ p, Named e true t p → Named e true (.array n t) p := fun p h => by simp only [Named]; exact h
    simp only [decT]
    cases hk : t.uintKind with
    | some w => exact (onOf (h1 _ (uintKind_named hk)) _).bind fun _ => Errs.pure _
    | none => exact (Errs.traverse (fun x => (onSetD _).bind fun _ => (decT_on e t _ _).mono h1) _).bind fun _ => Errs.pure _
  | .map k t, o, v => by
    have h0 : Named e true (.map k t) [] := by simp [Named]
    have h1 : ∀ p, Named e true k p → Named e true (.map k t) p := fun p h => by simp only [Named]; exact .inr (.inl h)
    have h2 : ∀ p, Named e true t p → Named e true (.map k t) p := fun p h => by simp only [Named]; exact .inr (.inr h)
    simp only [decT]
    exact (onOf h0 _).bind fun l => Errs.ite (Errs.pure _) ((Errs.repeat ((onSetD _).bind fun _ => ((decT_on e k _ _).mono h1).bind fun _ =>
      (onSetD _).bind fun _ => ((decT_on e t _ _).mono h2).bind fun _ => Errs.pure _) _).bind fun _ => Errs.pure _)
  | .struct fs, o, v => by
    simp only [decT]
    exact decStructT_on (decFieldsT_on e fs _ _ _) fun i => decNthT_on e fs i _
  | .lib l, o, v => by simp only [decT]; exact unmarshalLibT_on (by simp [Named]) l v
  | .bool, o, v => by simp only [decT]; exact onOf (by simp [Named]) _
  | .uint w b, o, v => by simp only [decT]; exact onOf (by simp [Named]) _
  | .int w b, o, v => by simp only [decT]; exact onOf (by simp [Named]) _
  | .borshEnum, o, v => by simp only [decT]; exact onOf (by simp [Named]) _
  | .f32, o, v => by simp only [decT]; exact onOf (by simp [Named]) _
  | .f64, o, v => by simp only [decT]; exact onOf (by simp [Named]) _
  | .str, o, v => by simp only [decT]; exact onOf (by simp [Named]) _
  | .plainInt, o, v => by simp only [decT]; exact onOf (by simp [Named]) _
  | .plainUint, o, v => by simp only [decT]; exact onOf (by simp [Named]) _
  | .other, o, v => by simp only [decT]; exact onOf (by simp [Named]) _
  | .iface, o, v => by simp only [decT]; exact onOf (by simp [Named]) _
theorem decFieldsT_on (e : Encoding) : (fs : Fields) → (sm : List (Bytes × Int)) → (seen : Bool) → (vs : List Val) →
    On (NamedField e true fs) (decFieldsT e fs sm seen vs)
  | .nil, _, _, _ => by simp only [decFieldsT]; exact Errs.pure _
  | .cons _ _ _, _, _, [] => by simp only [decFieldsT]; exact onPanic
  | .cons m t fs, sm, seen, v :: vs => by
    have h : ∀ sm seen, On (NamedField e true (.cons m t fs)) (decFieldsT e fs sm seen vs) := fun sm seen =>
      (decFieldsT_on e fs sm seen vs).mono fun p hp => by simp only [NamedField]; exact .inl hp
    simp only [decFieldsT]
    by_cases hs : m.tag.skip = true
    · rw [if_pos hs]; exact (h sm seen).bind fun _ => Errs.pure _
    · rw [if_neg hs]
      refine Errs.ite onPanic ((onExtension m).bind fun atEnd => ?_)
      by_cases hx : (atEnd || !m.exported) = true
      · rw [if_pos hx]; exact (h _ _).bind fun _ => Errs.pure _
      · rw [if_neg hx]
        have hx' : m.exported = true := by
          cases hm : m.exported with
          | true => rfl
          | false => simp [hm] at hx
        have hs' : m.tag.skip = false := by simpa using hs
        rcases hdl : (if e = .borsh then t.directLib else none) with _ | ⟨l, isPtr⟩
        · simp only
          have hd : ¬ (True ∧ e = .borsh ∧ t.directLib.isSome = true) := by
            rintro ⟨-, he, hd⟩
            rw [if_pos he] at hdl
            rw [hdl] at hd
            cases hd
          refine Errs.bind ?_ fun x => (onRecord _ _ _ _).bind fun sm => (h _ _).bind fun _ => Errs.pure _
          refine Errs.inField (Q := fun r => Named e true t r.fields ∨ (r.fields = [] ∧ (m.tag.option = true ∨ m.tag.coption = true)))
            ?_ fun r hr => ?_
          · exact decFieldT_on (Q := fun p => Named e true t p ∨ (p = [] ∧ (m.tag.option = true ∨ m.tag.coption = true)))
              (On.mono (Q' := fun p => Named e true t p ∨ (p = [] ∧ (m.tag.option = true ∨ m.tag.coption = true)))
                (decT_on e t _ _) fun p hp => .inl hp) fun hf => .inr ⟨rfl, hf⟩
          · simp only [NamedField]
            refine .inr ⟨hs', hx', ?_⟩
            rw [if_neg hd]
            exact ⟨r.fields, rfl, hr⟩
        · simp only
          have hd : True ∧ e = .borsh ∧ t.directLib.isSome = true := by
            by_cases he : e = .borsh
            · rw [if_pos he] at hdl; exact ⟨trivial, he, by rw [hdl]; rfl⟩
            · rw [if_neg he] at hdl; cases hdl
          have h0 : NamedField e true (.cons m t fs) [] := by
            simp only [NamedField]
            refine .inr ⟨hs', hx', ?_⟩
            rw [if_pos hd]
            trivial
          exact (unmarshalLibT_on h0 _ _).bind fun _ => (h _ _).bind fun _ => Errs.pure _
theorem decNthT_on (e : Encoding) : (fs : Fields) → (i : Nat) → (vs : List Val) →
    On (fun p => p = [] ∨ NamedVariant e true fs p) (decNthT e fs i vs)
  | .cons m t fs, 0, v :: vs => by
    simp only [decNthT]
    refine (onSetD (Q := fun p => p = [] ∨ NamedVariant e true (.cons m t fs) p) _).bind fun _ => Errs.bind ?_ fun _ => Errs.pure _
    exact On.mono (Q' := fun p => p = [] ∨ NamedVariant e true (.cons m t fs) p) (decT_on e t _ _) fun p hp => by
      right; simp only [NamedVariant]; exact .inr (.inl hp)
  | .cons m t fs, i + 1, v :: vs => by
    simp only [decNthT]
    refine Errs.bind (On.mono (Q' := fun p => p = [] ∨ NamedVariant e true (.cons m t fs) p) (decNthT_on e fs i vs) fun p hp => ?_)
      fun _ => Errs.pure _
    rcases hp with hp | hp
    · exact .inl hp
    · right; simp only [NamedVariant]; exact .inl hp
  | .nil, _, _ => by simp only [decNthT]; exact onPanic
  | .cons _ _ _, 0, [] => by simp only [decNthT]; exact onPanic
  | .cons _ _ _, _ + 1, [] => by simp only [decNthT]; exact onPanic
end

/-! ### causes -/

theorem unmarshalLibT_finds {l : Lib} (h : opaqueLib l = false) (old : Val) : Finds (unmarshalLibT l old) := by
  cases l <;> simp [opaqueLib] at h <;> simp only [unmarshalLibT] <;> exact findsOf _

theorem decFieldT_finds {e : Encoding} {t : Ty} {o : Opt} {old : Val} {core : T Dec Val} (h : Finds core) (h1 : o.optional = false)
    (h2 : o.coptional = false) : Finds (decFieldT e t o old core) := by
  unfold decFieldT
  rw [if_neg (by simp [h1]), if_neg (by simp [h2])]
  exact (findsOf _).bind fun _ => h

mutual
theorem decT_finds (e : Encoding) : (t : Ty) → clear t = true → (o : Opt) → (old : Val) → Finds (decT e t o old)
  | .ptr t, h, o, v => by
    simp only [decT]
    exact (decT_finds e t (by simpa [clear] using h) _ _).bind fun _ => Errs.pure _
  | .slice t, h, o, v => by
    have h' : clear t = true := by simpa [clear] using h
    simp only [decT]
    refine (findsOf _).bind fun l => Errs.ite (Errs.pure _) ((findsOf _).bind fun d => Errs.ite (findsOf _) ?_)
    cases t.uintKind with
    | some w => exact (findsOf _).bind fun _ => Errs.pure _
    | none => exact (Errs.repeat ((findsOf _).bind fun _ => decT_finds e t h' _ _) _).bind fun _ => Errs.pure _
  | .array n t, h, o, v => by
    have h' : clear t = true := by simpa [clear] using h
    simp only [decT]
    cases hk : t.uintKind with
    | some w => exact (findsOf _).bind fun _ => Errs.pure _
    | none => exact (Errs.traverse (fun x => (findsOf _).bind fun _ => decT_finds e t h' _ _) _).bind fun _ => Errs.pure _
  | .map k t, h, o, v => by
    have h' : clear k = true ∧ clear t = true := by simpa [clear] using h
    simp only [decT]
    exact (findsOf _).bind fun l => Errs.ite (Errs.pure _) ((Errs.repeat ((findsOf _).bind fun _ => (decT_finds e k h'.1 _ _).bind fun _ =>
      (findsOf _).bind fun _ => (decT_finds e t h'.2 _ _).bind fun _ => Errs.pure _) _).bind fun _ => Errs.pure _)
  | .struct fs, h, o, v => by
    have h' : clears fs = true ∧ (fs.isEnum = false ∨ clearVariants fs = true) := by simpa [clear] using h
    simp only [decT]
    unfold decStructT
    by_cases he : e = .borsh ∧ fs.isEnum = true
    · rw [if_pos he]
      have hv : clearVariants fs = true := by
        rcases h'.2 with h | h
        · rw [he.2] at h; cases h
        · exact h
      exact (findsOf _).bind fun _ => Errs.ite (findsOf _) ((decNthT_finds e fs hv _ _).bind fun _ => Errs.pure _)
    · rw [if_neg he]
      exact (decFieldsT_finds e fs h'.1 _ _ _).bind fun _ => Errs.pure _
  | .lib l, h, o, v => by simp only [decT]; exact unmarshalLibT_finds (by simpa [clear] using h) v
  | .bool, _, o, v => by simp only [decT]; exact findsOf _
  | .uint w b, _, o, v => by simp only [decT]; exact findsOf _
  | .int w b, _, o, v => by simp only [decT]; exact findsOf _
  | .borshEnum, _, o, v => by simp only [decT]; exact findsOf _
  | .f32, _, o, v => by simp only [decT]; exact findsOf _
  | .f64, _, o, v => by simp only [decT]; exact findsOf _
  | .str, _, o, v => by simp only [decT]; exact findsOf _
  | .plainInt, _, o, v => by simp only [decT]; exact findsOf _
  | .plainUint, _, o, v => by simp only [decT]; exact findsOf _
  | .other, _, o, v => by simp only [decT]; exact findsOf _
  | .iface, _, o, v => by simp only [decT]; exact findsOf _
theorem decFieldsT_finds (e : Encoding) : (fs : Fields) → clears fs = true → (sm : List (Bytes × Int)) → (seen : Bool) → (vs : List Val) →
    Finds (decFieldsT e fs sm seen vs)
  | .nil, _, _, _, _ => by simp only [decFieldsT]; exact Errs.pure _
  | .cons _ _ _, _, _, _, [] => by simp only [decFieldsT]; exact findsOf _
  | .cons m t fs, hc, sm, seen, v :: vs => by
    simp only [clears, Bool.and_eq_true, Bool.or_eq_true, Bool.not_eq_true'] at hc
    have h := fun sm seen => decFieldsT_finds e fs hc.2 sm seen vs
    simp only [decFieldsT]
    by_cases hs : m.tag.skip = true
    · rw [if_pos hs]; exact (h sm seen).bind fun _ => Errs.pure _
    · rw [if_neg hs]
      refine Errs.ite (findsOf _) ((findsOf _).bind fun atEnd => ?_)
      by_cases hx : (atEnd || !m.exported) = true
      · rw [if_pos hx]; exact (h _ _).bind fun _ => Errs.pure _
      · rw [if_neg hx]
        have hx' : m.exported = true := by
          cases hm : m.exported with
          | true => rfl
          | false => simp [hm] at hx
        have hc' : (m.tag.option = false ∧ m.tag.coption = false) ∧ clear t = true := by
          rcases hc.1 with (h | h) | h
          · exact absurd h hs
          · rw [hx'] at h; cases h
          · exact h
        rcases hdl : (if e = .borsh then t.directLib else none) with _ | ⟨l, isPtr⟩
        · simp only
          exact Errs.bind (Errs.inField (decFieldT_finds (decT_finds e t hc'.2 _ _) hc'.1.1 hc'.1.2) fun _ h => h) fun x =>
            (findsOf _).bind fun sm => (h _ _).bind fun _ => Errs.pure _
        · simp only
          have hl : opaqueLib l = false := by
            by_cases he : e = .borsh
            · rw [if_pos he] at hdl
              have := hc'.2
              cases t <;> simp [Ty.directLib] at hdl
              · obtain ⟨rfl, -⟩ := hdl; simpa [clear] using this
              · rename_i t
                cases t <;> simp [Ty.asLib] at hdl
                obtain ⟨rfl, -⟩ := hdl; simpa [clear] using this
            · rw [if_neg he] at hdl; cases hdl
          exact (unmarshalLibT_finds hl _).bind fun _ => (h _ _).bind fun _ => Errs.pure _
theorem decNthT_finds (e : Encoding) : (fs : Fields) → clearVariants fs = true → (i : Nat) → (vs : List Val) → Finds (decNthT e fs i vs)
  | .cons m t fs, h, 0, v :: vs => by
    simp only [decNthT]
    simp only [clearVariants, Bool.and_eq_true] at h
    exact (findsOf _).bind fun _ => (decT_finds e t h.1 _ _).bind fun _ => Errs.pure _
  | .cons m t fs, h, i + 1, v :: vs => by
    simp only [decNthT]
    simp only [clearVariants, Bool.and_eq_true] at h
    exact (decNthT_finds e fs h.2 i vs).bind fun _ => Errs.pure _
  | .nil, _, _, _ => by simp only [decNthT]; exact findsOf _
  | .cons _ _ _, _, 0, [] => by simp only [decNthT]; exact findsOf _
  | .cons _ _ _, _, _ + 1, [] => by simp only [decNthT]; exact findsOf _
end

end Verif
