import Verif.Proofs.Report
import Verif.Proofs.Sim
import Verif.Proofs.Append
/-! Facts about reports used in `Props/Reports`. -/
set_option linter.unusedSimpArgs false
namespace Verif
namespace T
variable {σ α β : Type}

/-- All errors have the property. -/
def Errs (P : Report → Prop) (x : T σ α) : Prop := ∀ s r s', x s = (.err r, s') → P r

variable {P : Report → Prop}

theorem Errs.pure (a : α) : Errs P (pure a : T σ α) := by
  intro s r s' h
  cases h
theorem Errs.of (h : ∀ x, P ⟨[], true, x⟩) (m : M σ α) : Errs P (T.of m) := by
  intro s r s' hx
  unfold T.of at hx
  rcases hq : m s with ⟨q, s1⟩
  rw [hq] at hx
  cases q with
  | ok a => cases hx
  | err x => cases hx; exact h x
  | panic => cases hx
theorem Errs.never {m : M σ α} (h : ∀ s x s', m s ≠ (.err x, s')) : Errs P (T.of m) := by
  intro s r s' hx
  unfold T.of at hx
  rcases hq : m s with ⟨q, s1⟩
  rw [hq] at hx
  cases q with
  | ok a => cases hx
  | err x => exact absurd hq (h s x s1)
  | panic => cases hx
theorem Errs.bind {x : T σ α} {f : α → T σ β} (h : Errs P x) (hf : ∀ a, Errs P (f a)) : Errs P (x >>= f) := by
  intro s r s' hx
  rw [bind_apply] at hx
  rcases hq : x s with ⟨q, s1⟩
  rw [hq] at hx
  cases q with
  | ok a => exact hf a s1 r s' hx
  | err y =>
    cases hx
    exact h s _ _ hq
  | panic => cases hx
theorem Errs.ite {c : Prop} [Decidable c] {x y : T σ α} (hx : Errs P x) (hy : Errs P y) : Errs P (if c then x else y) := by
  split
  · exact hx
  · exact hy
theorem Errs.inField {n : Bytes} {x : T σ α} {Q : Report → Prop} (h : Errs Q x) (hq : ∀ r, Q r → P { r with fields := n :: r.fields }) :
    Errs P (x.inField n) := by
  intro s r s' hx
  unfold T.inField at hx
  rcases hq' : x s with ⟨q, s1⟩
  rw [hq'] at hx
  cases q with
  | ok a => cases hx
  | err y => cases hx; exact hq y (h s y _ hq')
  | panic => cases hx
theorem Errs.asText {x : T σ α} {Q : Report → Prop} (h : Errs Q x) (hq : ∀ r, Q r → P { r with found := false }) :
    Errs P x.asText := by
  intro s r s' hx
  unfold T.asText at hx
  rcases hq' : x s with ⟨q, s1⟩
  rw [hq'] at hx
  cases q with
  | ok a => cases hx
  | err y => cases hx; exact hq y (h s y _ hq')
  | panic => cases hx
theorem Errs.repeat {f : T σ α} (h : Errs P f) (n : Nat) : Errs P (repeatT f n) := by
  induction n with
  | zero => exact Errs.pure _
  | succ n ih => exact h.bind fun _ => ih.bind fun _ => Errs.pure _
theorem Errs.traverse {f : α → T σ β} (h : ∀ a, Errs P (f a)) (xs : List α) : Errs P (traverseT f xs) := by
  induction xs with
  | nil => exact Errs.pure _
  | cons x xs ih => exact (h x).bind fun _ => ih.bind fun _ => Errs.pure _
theorem Errs.forEach {f : α → T σ Unit} (h : ∀ a, Errs P (f a)) (xs : List α) : Errs P (forEachT f xs) := by
  induction xs with
  | nil => exact Errs.pure _
  | cons x xs ih => exact (h x).bind fun _ => ih
theorem Errs.forIndex {f : α → T σ Unit} (h : ∀ a, Errs P (f a)) (n : Nat) (xs : List α) :
    Errs P (forIndexT f n xs) := by
  induction n generalizing xs with
  | zero => exact Errs.pure _
  | succ n ih =>
    cases xs with
    | nil => exact Errs.never (fun _ _ _ h => by cases h)
    | cons x xs => exact (h x).bind fun _ => ih xs

/-- `x` does the same in the reporting and the plain version. -/
theorem of_plain_ok {x : T σ α} {s s' : σ} {a : α} (h : x.plain s = (.ok a, s')) : x s = (.ok a, s') := by
  rw [plain_apply] at h
  rcases hx : x s with ⟨q, s1⟩
  rw [hx] at h
  cases q with
  | ok b => simp only [Told.plain, Prod.mk.injEq, Res.ok.injEq] at h; rw [h.1, h.2]
  | err y => simp [Told.plain] at h
  | panic => simp [Told.plain] at h

theorem of_plain_err {x : T σ α} {s s' : σ} {c : Err} (h : x.plain s = (.err c, s')) :
    ∃ r, x s = (.err r, s') ∧ r.cause = c := by
  rw [plain_apply] at h
  rcases hx : x s with ⟨q, s1⟩
  rw [hx] at h
  cases q with
  | ok b => simp [Told.plain] at h
  | err y => simp only [Told.plain, Prod.mk.injEq, Res.err.injEq] at h; exact ⟨y, by rw [h.2], h.1⟩
  | panic => simp [Told.plain] at h

end T
open T

/-! ### encoding: the cause is never hidden -/

abbrev Finds {σ α : Type} (x : T σ α) : Prop := Errs (fun r => r.found = true) x

theorem findsOf {σ α : Type} (m : M σ α) : Finds (T.of m) := Errs.of (fun _ => rfl) m

theorem encLibPayloadT_finds (e : Encoding) (l : Lib) (v : Val) : Finds (encLibPayloadT e l v) := by
  have h : Finds (encU128FieldsT v) := by
    cases v <;> simp only [encU128FieldsT] <;> first
      | exact (Errs.inField (findsOf _) fun _ h => h).bind fun _ => (Errs.inField (findsOf _) fun _ h => h).bind fun _ => findsOf _
      | exact findsOf _
  cases l <;> simp only [encLibPayloadT] <;> first
    | exact h
    | exact findsOf _

theorem encStructT_finds {e : Encoding} {fs : Fields} {vs : List Val} {a : T Enc Unit} {b : Nat → T Enc Unit} (ha : Finds a)
    (hb : ∀ i, Finds (b i)) : Finds (encStructT e fs vs a b) := by
  unfold encStructT
  split
  · split
    · exact (findsOf _).bind fun _ => Errs.ite (findsOf _) (hb _)
    · exact findsOf _
  · exact ha

mutual
theorem encT_finds (e : Encoding) : (t : Ty) → (o : Opt) → (v : Val) → Finds (encT e t o v)
  | .ptr t, o, v => by
    cases v with
    | ptr p =>
      simp only [encT]
      cases h : t.asLib with
      | some l => exact findsOf _
      | none =>
        refine Errs.ite ((findsOf _).bind fun _ => encT_finds e t _ _) ((findsOf _).bind fun _ => ?_)
        cases p with
        | none => exact Errs.pure _
        | some x => exact encT_finds e t _ _
    | _ => exact findsOf _
  | .slice t, o, v => by
    cases v with
    | seq xs =>
      simp only [encT]
      refine (findsOf _).bind fun l => ?_
      cases t.uintKind with
      | some w => exact findsOf _
      | none => exact Errs.forIndex (fun x => (findsOf _).bind fun _ => encT_finds e t _ _) _ _
    | _ => exact findsOf _
  | .array n t, o, v => by
    cases v with
    | arr xs =>
      simp only [encT]
      cases t.uintKind with
      | some w => exact findsOf _
      | none => exact Errs.forIndex (fun x => (findsOf _).bind fun _ => encT_finds e t _ _) _ _
    | _ => exact findsOf _
  | .map k t, o, v => by
    cases v with
    | map m =>
      simp only [encT]
      exact (findsOf _).bind fun m => (findsOf _).bind fun _ => Errs.forEach (fun x =>
        (findsOf _).bind fun _ => (encT_finds e k _ _).bind fun _ =>
          Errs.ite ((findsOf _).bind fun _ => encT_finds e t _ _) (findsOf _)) _
    | _ => exact findsOf _
  | .struct fs, o, v => by
    cases v with
    | struct vs => simp only [encT]; exact encStructT_finds (encFieldsT_finds e fs _ _) fun i => encNthT_finds e fs i vs
    | _ => exact findsOf _
  | .lib l, o, v => by simp only [encT]; exact findsOf _
  | .bool, o, v => by simp only [encT]; exact findsOf _
  | .uint w b, o, v => by simp only [encT]; exact findsOf _
  | .int w b, o, v => by simp only [encT]; exact findsOf _
  | .borshEnum, o, v => by simp only [encT]; exact findsOf _
  | .f32, o, v => by simp only [encT]; exact findsOf _
  | .f64, o, v => by simp only [encT]; exact findsOf _
  | .str, o, v => by simp only [encT]; exact findsOf _
  | .plainInt, o, v => by simp only [encT]; exact findsOf _
  | .plainUint, o, v => by simp only [encT]; exact findsOf _
  | .other, o, v => by simp only [encT]; exact findsOf _
  | .iface, o, v => by simp only [encT]; exact findsOf _
theorem encFieldsT_finds (e : Encoding) : (fs : Fields) → (sm : List (Bytes × Int)) → (vs : List Val) → Finds (encFieldsT e fs sm vs)
  | .nil, _, _ => by simp only [encFieldsT]; exact Errs.pure _
  | .cons _ _ _, _, [] => by simp only [encFieldsT]; exact findsOf _
  | .cons m t fs, sm, v :: vs => by
    have h := fun sm => encFieldsT_finds e fs sm vs
    simp only [encFieldsT]
    exact Errs.ite (h sm) ((findsOf _).bind fun sm => Errs.ite
      ((Errs.inField (Q := fun r => r.found = true) ((findsOf _).bind fun _ => (findsOf _).bind fun _ =>
        Errs.ite (encT_finds e t _ _) (Errs.pure _)) (fun _ h => h)).bind fun _ => h sm) (h sm))
theorem encNthT_finds (e : Encoding) : (fs : Fields) → (i : Nat) → (vs : List Val) → Finds (encNthT e fs i vs)
  | .cons _ t _, 0, v :: _ => by simp only [encNthT]; exact encPayloadT_finds e t v
  | .cons _ _ fs, i + 1, _ :: vs => by simp only [encNthT]; exact encNthT_finds e fs i vs
  | .nil, _, _ => by simp only [encNthT]; exact findsOf _
  | .cons _ _ _, 0, [] => by simp only [encNthT]; exact findsOf _
  | .cons _ _ _, _ + 1, [] => by simp only [encNthT]; exact findsOf _
theorem encPayloadT_finds (e : Encoding) : (t : Ty) → (v : Val) → Finds (encPayloadT e t v)
  | .ptr t, v => by
    cases v with
    | ptr p =>
      cases p with
      | none => simp only [encPayloadT]; exact Errs.pure _
      | some x => simp only [encPayloadT]; exact encVariantT_finds e t x
    | _ => simp only [encPayloadT]; exact findsOf _
  | .struct fs, v => by
    cases v with
    | struct vs => simp only [encPayloadT]; exact encStructT_finds (encFieldsT_finds e fs _ _) fun i => encNthT_finds e fs i vs
    | _ => simp only [encPayloadT]; exact findsOf _
  | .lib l, v => by simp only [encPayloadT]; exact encLibPayloadT_finds e l v
  | .bool, v => by simp only [encPayloadT]; exact findsOf _
  | .uint w b, v => by simp only [encPayloadT]; exact findsOf _
  | .int w b, v => by simp only [encPayloadT]; exact findsOf _
  | .borshEnum, v => by simp only [encPayloadT]; exact findsOf _
  | .f32, v => by simp only [encPayloadT]; exact findsOf _
  | .f64, v => by simp only [encPayloadT]; exact findsOf _
  | .str, v => by simp only [encPayloadT]; exact findsOf _
  | .plainInt, v => by simp only [encPayloadT]; exact findsOf _
  | .plainUint, v => by simp only [encPayloadT]; exact findsOf _
  | .other, v => by simp only [encPayloadT]; exact findsOf _
  | .iface, v => by simp only [encPayloadT]; exact findsOf _
  | .slice _, v => by simp only [encPayloadT]; exact findsOf _
  | .array _ _, v => by simp only [encPayloadT]; exact findsOf _
  | .map _ _, v => by simp only [encPayloadT]; exact findsOf _
theorem encVariantT_finds (e : Encoding) : (t : Ty) → (v : Val) → Finds (encVariantT e t v)
  | .struct fs, v => by
    cases v with
    | struct vs => simp only [encVariantT]; exact encStructT_finds (encFieldsT_finds e fs _ _) fun i => encNthT_finds e fs i vs
    | _ => simp only [encVariantT]; exact findsOf _
  | .lib l, v => by simp only [encVariantT]; exact encLibPayloadT_finds e l v
  | .bool, v => by simp only [encVariantT]; exact findsOf _
  | .uint w b, v => by simp only [encVariantT]; exact findsOf _
  | .int w b, v => by simp only [encVariantT]; exact findsOf _
  | .borshEnum, v => by simp only [encVariantT]; exact findsOf _
  | .f32, v => by simp only [encVariantT]; exact findsOf _
  | .f64, v => by simp only [encVariantT]; exact findsOf _
  | .str, v => by simp only [encVariantT]; exact findsOf _
  | .plainInt, v => by simp only [encVariantT]; exact findsOf _
  | .plainUint, v => by simp only [encVariantT]; exact findsOf _
  | .other, v => by simp only [encVariantT]; exact findsOf _
  | .iface, v => by simp only [encVariantT]; exact findsOf _
  | .slice _, v => by simp only [encVariantT]; exact findsOf _
  | .array _ _, v => by simp only [encVariantT]; exact findsOf _
  | .map _ _, v => by simp only [encVariantT]; exact findsOf _
  | .ptr t, v => by simp only [encVariantT]; exact findsOf _
end

/-! ### the field loops, split -/

/-- No field of `fs` announces the length of `name`. -/
def Fields.uncounted (name : Bytes) : Fields → Prop
  | .nil => True
  | .cons m _ fs => m.tag.sizeOf ≠ name ∧ fs.uncounted name

theorem recordSize_cases {σ : Type} (m : FieldMeta) (t : Ty) (v : Val) (sm : List (Bytes × Int)) (s : σ) :
    ((recordSize m t v sm : M σ _) s = (.panic, s)) ∨
    ∃ sm', (∀ s, (recordSize m t v sm : M σ _) s = (.ok sm', s)) ∧
      ∀ n, n ≠ [] → m.tag.sizeOf ≠ n → lookupSize n sm' = lookupSize n sm := by
  unfold recordSize
  by_cases h : m.tag.sizeOf = []
  · right; exact ⟨sm, fun s => by rw [if_pos h]; rfl, fun _ _ _ => rfl⟩
  · rw [if_neg h]
    have hs : sizeofVal t.kind v = .panic ∨ ∃ n, sizeofVal t.kind v = .ok n := by
      unfold sizeofVal; split <;> simp
    rcases hs with hs | ⟨n, hs⟩
    · left; rw [hs]; rfl
    · right
      refine ⟨(m.tag.sizeOf, n) :: sm, fun s => by rw [hs]; rfl, fun x _ hx => ?_⟩
      simp only [lookupSize, if_neg hx]

/-- After the fields `fs` the loop goes on with the others. -/
theorem encFieldsT_append (e : Encoding) : (fs : Fields) → (sm : List (Bytes × Int)) → (us : List Val) → us.length = fs.length →
    (s s1 : Enc) → encFields e fs sm us s = (.ok (), s1) → ∃ sm', (∀ n, n ≠ [] → fs.uncounted n → lookupSize n sm' = lookupSize n sm) ∧
      ∀ gs ws, encFieldsT e (fs.append gs) sm (us ++ ws) s = encFieldsT e gs sm' ws s1
  | .nil, sm, [], _, s, s1, h => by
    simp only [encFields] at h
    cases h
    exact ⟨sm, fun _ _ _ => rfl, fun gs ws => rfl⟩
  | .nil, sm, _ :: _, hl, _, _, _ => by simp [Fields.length] at hl
  | .cons _ _ _, sm, [], hl, _, _, _ => by simp [Fields.length] at hl
  | .cons m t fs, sm, v :: us, hl, s, s1, h => by
    have hl' : us.length = fs.length := by simpa [Fields.length] using hl
    simp only [encFields] at h
    simp only [Fields.append, List.cons_append, encFieldsT]
    by_cases hs : m.tag.skip = true
    · rw [if_pos hs] at h
      obtain ⟨sm', h1, h2⟩ := encFieldsT_append e fs sm us hl' s s1 h
      exact ⟨sm', fun n hn hu => h1 n hn hu.2, fun gs ws => by rw [if_pos hs]; exact h2 gs ws⟩
    · rw [if_neg hs] at h
      rcases recordSize_cases m t v sm s with hr | ⟨sm1, hr, hk⟩
      · rw [M.bind_panic hr] at h; cases h
      · rw [M.bind_ok (hr s)] at h
        have hr' : ∀ s : Enc, T.of (recordSize m t v sm) s = (.ok sm1, s) := by intro s; unfold T.of; rw [hr s]
        by_cases hx : m.exported = true
        · rw [if_pos hx] at h
          have hb : ((do
              T.of (setCurE m.tag.order)
              let more ← T.of (encFlags e t (fieldOpt m sm1) v)
              if more then encT e t (fieldOpt m sm1) v else pure () : T Enc Unit).inField m.name).plain = (do
              setCurE m.tag.order
              let more ← encFlags e t (fieldOpt m sm1) v
              if more then encCore e t (fieldOpt m sm1) v else pure ()) := by
            simp only [plain_inField, plain_bind, plain_of, plain_ite, plain_pure, encT_plain]
          generalize hw : ((do
              T.of (setCurE m.tag.order)
              let more ← T.of (encFlags e t (fieldOpt m sm1) v)
              if more then encT e t (fieldOpt m sm1) v else pure () : T Enc Unit).inField m.name) = w at hb
          have hh : (w.plain >>= fun _ => encFields e fs sm1 us) s = (.ok (), s1) := by
            rw [hb, ← h]
            simp only [M.bind_assoc']
            refine congrFun (congrArg (fun f => (setCurE m.tag.order >>= f : EM Unit)) ?_) s
            funext _
            refine congrArg (fun f => (encFlags e t (fieldOpt m sm1) v >>= f : EM Unit)) ?_
            funext more
            cases more <;> rfl
          rcases hq : w.plain s with ⟨q, s2⟩
          cases q with
          | err x => rw [M.bind_err hq] at hh; cases hh
          | panic => rw [M.bind_panic hq] at hh; cases hh
          | ok a =>
            rw [M.bind_ok hq] at hh
            obtain ⟨sm', h1, h2⟩ := encFieldsT_append e fs sm1 us hl' s2 s1 hh
            refine ⟨sm', fun n hn hu => (h1 n hn hu.2).trans (hk n hn hu.1), fun gs ws => ?_⟩
            rw [if_neg hs, T.bind_ok (hr' s), if_pos hx, hw, T.bind_ok (of_plain_ok hq)]
            exact h2 gs ws
        · rw [if_neg hx] at h
          obtain ⟨sm', h1, h2⟩ := encFieldsT_append e fs sm1 us hl' s s1 h
          refine ⟨sm', fun n hn hu => (h1 n hn hu.2).trans (hk n hn hu.1), fun gs ws => ?_⟩
          rw [if_neg hs, T.bind_ok (hr' s), if_neg hx]
          exact h2 gs ws

/-- What is read first is put in front of what the rest reads. -/
theorem cons_append {σ : Type} {x : T σ (List Val)} {v : Val} {xs : List Val} (s : σ) :
    ((x >>= fun ys => pure (xs ++ ys)) >>= fun ys => pure (v :: ys)) s = (x >>= fun ys => pure ((v :: xs) ++ ys)) s := by
  simp only [T.bind_apply]
  rcases x s with ⟨q, s'⟩
  cases q <;> rfl

/-- Whether one of the fields read is a binary extension. -/
def Fields.extended : Fields → Bool
  | .nil => false
  | .cons m _ fs => (!m.tag.skip && m.tag.binExt) || fs.extended

theorem cons_of {σ : Type} {x y : T σ (List Val)} {v : Val} {xs : List Val} {s s1 : σ}
    (h : x s = (y >>= fun ys => pure (xs ++ ys)) s1) :
    (x >>= fun ys => pure (v :: ys)) s = (y >>= fun ys => pure ((v :: xs) ++ ys)) s1 := by
  rw [← cons_append, T.bind_apply, T.bind_apply (y >>= _), h]

theorem map_ok {σ α β : Type} {x : M σ α} {f : α → β} {s s1 : σ} {b : β} (h : (x >>= fun a => pure (f a)) s = (.ok b, s1)) :
    ∃ a, x s = (.ok a, s1) ∧ b = f a := by
  rw [M.bind_apply] at h
  rcases hx : x s with ⟨q, s2⟩
  rw [hx] at h
  cases q with
  | ok a => cases h; exact ⟨a, rfl, rfl⟩
  | err y => cases h
  | panic => cases h

/-- After the fields `fs` the loop goes on with the others. -/
theorem decFieldsT_append (e : Encoding) : (fs : Fields) → (sm : List (Bytes × Int)) → (seen : Bool) → (us : List Val) →
    us.length = fs.length → (d d1 : Dec) → (xs : List Val) → decFields e fs sm seen us d = (.ok xs, d1) →
    ∃ sm', (∀ n, n ≠ [] → fs.uncounted n → lookupSize n sm' = lookupSize n sm) ∧
      ∀ gs ws, decFieldsT e (fs.append gs) sm seen (us ++ ws) d =
        (decFieldsT e gs sm' (seen || fs.extended) ws >>= fun ys => pure (xs ++ ys)) d1
  | .nil, sm, seen, [], _, d, d1, xs, h => by
    simp only [decFields] at h
    cases h
    refine ⟨sm, fun _ _ _ => rfl, fun gs ws => ?_⟩
    simp only [Fields.append, List.nil_append, Fields.extended, Bool.or_false]
    rw [T.bind_apply]
    rcases decFieldsT e gs sm seen ws d with ⟨q, s⟩
    cases q <;> rfl
  | .nil, sm, _, _ :: _, hl, _, _, _, _ => by simp [Fields.length] at hl
  | .cons _ _ _, sm, _, [], hl, _, _, _, _ => by simp [Fields.length] at hl
  | .cons m t fs, sm, seen, v :: us, hl, d, d1, xs, h => by
    have hl' : us.length = fs.length := by simpa [Fields.length] using hl
    simp only [decFields] at h
    simp only [Fields.append, List.cons_append, decFieldsT]
    by_cases hs : m.tag.skip = true
    · rw [if_pos hs] at h
      obtain ⟨ys, hy, rfl⟩ := map_ok h
      obtain ⟨sm', h1, h2⟩ := decFieldsT_append e fs sm seen us hl' d d1 ys hy
      refine ⟨sm', fun n hn hu => h1 n hn hu.2, fun gs ws => ?_⟩
      rw [if_pos hs]
      simp only [Fields.extended, hs, Bool.not_true, Bool.false_and, Bool.false_or]
      exact cons_of (h2 gs ws)
    · rw [if_neg hs] at h
      have hse : (Fields.cons m t fs).extended = (m.tag.binExt || fs.extended) := by simp [Fields.extended, hs]
      by_cases hx : (!m.tag.binExt && seen) = true
      · rw [if_pos hx] at h; cases h
      · rw [if_neg hx] at h
        rcases hq : extensionEnds m d with ⟨q, d2⟩
        cases q with
        | err x => rw [M.bind_err hq] at h; cases h
        | panic => rw [M.bind_panic hq] at h; cases h
        | ok atEnd =>
          rw [M.bind_ok hq] at h
          have hq' : T.of (extensionEnds m) d = (.ok atEnd, d2) := by unfold T.of; rw [hq]
          have hor : ∀ b, (seen || m.tag.binExt || b) = (seen || (m.tag.binExt || b)) := fun b => by rw [Bool.or_assoc]
          by_cases ha : (atEnd || !m.exported) = true
          · rw [if_pos ha] at h
            obtain ⟨ys, hy, rfl⟩ := map_ok h
            obtain ⟨sm', h1, h2⟩ := decFieldsT_append e fs sm _ us hl' d2 d1 ys hy
            refine ⟨sm', fun n hn hu => h1 n hn hu.2, fun gs ws => ?_⟩
            rw [if_neg hs, if_neg hx, T.bind_ok hq', if_pos ha, hse, ← hor]
            exact cons_of (h2 gs ws)
          · rw [if_neg ha] at h
            rcases hdl : (if e = .borsh then t.directLib else none) with _ | ⟨l, isPtr⟩
            · simp only [hdl] at h
              generalize hf : decField e t (fieldOpt m sm) v (decCore e t (fieldOpt m sm) v) = f at h
              have hfp : (T.inField m.name (decFieldT e t (fieldOpt m sm) v (decT e t (fieldOpt m sm) v))).plain = f := by
                rw [← hf, plain_inField, decFieldT_plain, decT_plain]
              rcases hfd : f d2 with ⟨q, d3⟩
              cases q with
              | err x => rw [M.bind_err hfd] at h; cases h
              | panic => rw [M.bind_panic hfd] at h; cases h
              | ok x =>
                rw [M.bind_ok hfd] at h
                rcases recordSize_cases m t x sm d3 with hr | ⟨sm1, hr, hk⟩
                · rw [M.bind_panic hr] at h; cases h
                · rw [M.bind_ok (hr d3)] at h
                  obtain ⟨ys, hy, rfl⟩ := map_ok h
                  obtain ⟨sm', h1, h2⟩ := decFieldsT_append e fs sm1 _ us hl' d3 d1 ys hy
                  have hr' : T.of (recordSize m t x sm) d3 = (.ok sm1, d3) := by unfold T.of; rw [hr d3]
                  refine ⟨sm', fun n hn hu => (h1 n hn hu.2).trans (hk n hn hu.1), fun gs ws => ?_⟩
                  rw [if_neg hs, if_neg hx, T.bind_ok hq', if_neg ha, hse, ← hor]
                  simp only [hdl]
                  rw [T.bind_ok (of_plain_ok (hfp ▸ hfd)), T.bind_ok hr']
                  exact cons_of (h2 gs ws)
            · simp only [hdl] at h
              rcases hfd : unmarshalLib l l.zero d2 with ⟨q, d3⟩
              cases q with
              | err x => rw [M.bind_err hfd] at h; cases h
              | panic => rw [M.bind_panic hfd] at h; cases h
              | ok x =>
                rw [M.bind_ok hfd] at h
                obtain ⟨ys, hy, rfl⟩ := map_ok h
                obtain ⟨sm', h1, h2⟩ := decFieldsT_append e fs sm _ us hl' d3 d1 ys hy
                refine ⟨sm', fun n hn hu => h1 n hn hu.2, fun gs ws => ?_⟩
                rw [if_neg hs, if_neg hx, T.bind_ok hq', if_neg ha, hse, ← hor]
                simp only [hdl]
                rw [T.bind_ok (of_plain_ok (x := unmarshalLibT l l.zero) (by rw [unmarshalLibT_plain]; exact hfd))]
                exact cons_of (h2 gs ws)

end Verif
