import Verif.Proofs.Local
import Verif.Spec.Parts
/-! Writing part by part. -/
set_option linter.unusedSimpArgs false
namespace Verif
open Verif.Spec

/-- The write has this outcome on every encoder with encoding `e` and a writer that never fails. -/
def Does (e : Encoding) (w : EM Unit) (x : Res Unit × Bytes) : Prop :=
  ∀ s : Enc, s.enc = e → s.NoFail → ∃ cs c, cs.flatten = x.2 ∧ w s = (x.1, s.left cs c)

theorem noFail_sink {s : Enc} (h : s.NoFail) : s.sink = okSink := by
  funext a b
  exact h a b

theorem EW.does {e : Encoding} {w : EM Unit} {b : Bytes} (h : EW e w b) : Does e w (.ok (), b) := h

theorem Does.series {e : Encoding} {w : EM Unit} {f : Unit → EM Unit} {x : Res Unit × Bytes} {ps : List (Res Unit × Bytes)}
    (h : Does e w x) (hf : Does e (f ()) (inSeries ps)) : Does e (w >>= f) (inSeries (x :: ps)) := by
  intro s he hn
  obtain ⟨cs, c, h1, h2⟩ := h s he hn
  obtain ⟨r, b⟩ := x
  cases r with
  | ok u =>
    cases u
    obtain ⟨cs', c', g1, g2⟩ := hf (s.left cs c) (by simpa using he) (hn.left _ _)
    refine ⟨cs ++ cs', c', ?_, ?_⟩
    · simp only [inSeries, List.flatten_append, h1, g1]
    · rw [M.bind_ok h2, g2, Enc.left_left]
      rfl
  | err x => exact ⟨cs, c, h1, M.bind_err h2⟩
  | panic => exact ⟨cs, c, h1, M.bind_panic h2⟩

theorem Does.pure (e : Encoding) : Does e (Pure.pure ()) (.ok (), []) := by
  intro s _ _
  exact ⟨[], s.cur, rfl, by rw [M.pure_apply, s.left_self']⟩

theorem inSeries_one (x : Res Unit × Bytes) : inSeries [x] = x := by
  obtain ⟨r, b⟩ := x
  cases r with
  | ok u => cases u; simp [inSeries]
  | _ => rfl

/-- A part that follows a change of the field option is written as it is alone. -/
theorem does_core {e : Encoding} (he : e.valid = true) (t : Ty) (v : Val) :
    Does e (setCurE .le >>= fun _ => encCore e t {} v) (marshal e t v) := by
  intro s hs hn
  have hne : e ≠ .other := by intro h; subst h; cases he
  have ha : ({ s with cur := some Order.le } : Enc).Alike { Enc.new e with cur := some Order.le } :=
    ⟨noFail_sink hn, rfl, hs, rfl⟩
  obtain ⟨r, cs, c, h1, h2⟩ := Local.encCore e t {} v _ _ ha
  have hm : marshal e t v = (r, cs.flatten) := by
    unfold marshal encode
    have : (M.get >>= fun s : Enc => if s.enc = .other then M.panic else setCurE .le >>= fun _ => encCore s.enc t {} v) (Enc.new e) =
        encCore e t {} v { Enc.new e with cur := some Order.le } := by
      rw [M.bind_ok (M.get_apply _), if_neg (show ¬ (Enc.new e).enc = .other from hne)]
      rfl
    rw [this, h2]
    simp [Enc.left, Enc.push, Enc.out, Enc.new]
  rw [hm]
  refine ⟨cs, c, rfl, ?_⟩
  have : (setCurE .le >>= fun _ => encCore e t {} v) s = encCore e t {} v { s with cur := some Order.le } := rfl
  rw [this, h1]
  rfl

/-- What `marshal` returns, from what `encCore` does. -/
theorem marshal_of {e : Encoding} (he : e.valid = true) {t : Ty} {v : Val} {x : Res Unit × Bytes}
    (h : Does e (setCurE .le >>= fun _ => encCore e t {} v) x) : marshal e t v = x := by
  obtain ⟨cs, c, h1, h2⟩ := h (Enc.new e) rfl (fun _ _ => rfl)
  obtain ⟨cs', c', g1, g2⟩ := does_core he t v (Enc.new e) rfl (fun _ _ => rfl)
  rw [h2, Prod.mk.injEq] at g2
  refine Prod.ext g2.1.symm ?_
  rw [← h1, ← g1]
  have : cs = cs' := by
    have := congrArg Enc.log g2.2
    simpa [Enc.left, Enc.push, Enc.new] using this
  rw [this]

theorem Does.set {e : Encoding} {w : EM Unit} {x : Res Unit × Bytes} (h : Does e w x) (o : Order) :
    Does e (setCurE o >>= fun _ => w) x := by
  intro s he hn
  obtain ⟨cs, c, h1, h2⟩ := h { s with cur := some o } he hn
  exact ⟨cs, c, h1, h2⟩

theorem Does.forIndex {e : Encoding} {α : Type} {f : α → EM Unit} {g : α → Res Unit × Bytes} (hf : ∀ a, Does e (f a) (g a)) :
    ∀ xs : List α, Does e (forIndexM f xs.length xs) (inSeries (xs.map g))
  | [] => Does.pure e
  | x :: xs => (hf x).series (Does.forIndex hf xs)

/-- The flags do not matter once they are written. -/
theorem encCore_flags (e : Encoding) : ∀ (t : Ty) (a b a' b' : Bool) (n : Option Int) (o : Order) (v : Val),
    encCore e t ⟨a, b, n, o⟩ v = encCore e t ⟨a', b', n, o⟩ v
  | .ptr t, a, b, a', b', n, o, v => by
    cases v <;> simp only [encCore]
    cases t.asLib with
    | some l => rfl
    | none =>
      simp only []
      by_cases h : e = .borsh
      · rw [if_pos h, if_pos h]
      · rw [if_neg h, if_neg h]
        rename_i p
        cases p with
        | none => rfl
        | some x => simp only [encCore_flags e t a b a' b' n o x]
  | .lib _, _, _, _, _, _, _, v => by simp only [encCore]
  | .slice _, _, _, _, _, _, _, v => by cases v <;> simp only [encCore]
  | .array _ _, _, _, _, _, _, _, v => by cases v <;> simp only [encCore]
  | .map _ _, _, _, _, _, _, _, v => by cases v <;> simp only [encCore]
  | .struct _, _, _, _, _, _, _, v => by cases v <;> simp only [encCore]
  | .iface, _, _, _, _, _, _, v => by cases v <;> simp only [encCore]
  | .bool, _, _, _, _, _, _, _ => by simp only [encCore, encPlain]
  | .uint _ _, _, _, _, _, _, _, _ => by simp only [encCore, encPlain]
  | .int _ _, _, _, _, _, _, _, _ => by simp only [encCore, encPlain]
  | .borshEnum, _, _, _, _, _, _, _ => by simp only [encCore, encPlain]
  | .f32, _, _, _, _, _, _, _ => by simp only [encCore, encPlain]
  | .f64, _, _, _, _, _, _, _ => by simp only [encCore, encPlain]
  | .str, _, _, _, _, _, _, _ => by simp only [encCore, encPlain]
  | .plainInt, _, _, _, _, _, _, _ => by simp only [encCore]
  | .plainUint, _, _, _, _, _, _, _ => by simp only [encCore]
  | .other, _, _, _, _, _, _, _ => by simp only [encCore]
termination_by structural t => t

theorem fields_does {e : Encoding} (he : e.valid = true) : ∀ (fs : Fields) (vs : List Val), plainTags fs = true →
    vs.length = fs.length → Does e (encFields e fs [] vs) (inSeries (fieldParts e fs vs))
  | .nil, vs, _, _ => by
    simp only [encFields, fieldParts]
    exact Does.pure e
  | .cons m t fs, [], _, h => by simp [Fields.length] at h
  | .cons m t fs, v :: vs, hp, hl => by
    simp only [plainTags, Bool.and_eq_true, beq_iff_eq] at hp
    have ih := fields_does he fs vs hp.2 (by simpa [Fields.length] using hl)
    have skip : Does e (encFields e fs [] vs) (inSeries ((.ok (), []) :: fieldParts e fs vs)) := by
      have : inSeries ((.ok (), []) :: fieldParts e fs vs) = inSeries (fieldParts e fs vs) := by simp [inSeries]
      rw [this]
      exact ih
    simp only [encFields, fieldParts, fieldPart]
    by_cases hs : m.tag.skip = true
    · rw [if_pos hs, if_pos (.inl hs)]
      exact skip
    · rw [if_neg hs]
      have hrec : (recordSize m t v [] : EM _) = Pure.pure [] := by
        unfold recordSize
        rw [if_pos hp.1.2]
      by_cases hx : m.exported = true
      · rw [if_neg (by simp [hs, hx])]
        rw [hrec]
        intro s hse hsn
        rw [show ∀ f : List (Bytes × Int) → EM Unit, ((Pure.pure [] : EM _) >>= f) = f [] from fun _ => rfl]
        rw [if_pos hx]
        have h1 : (setCurE m.tag.order) s = (.ok (), s.left [] (some .le)) := by
          rw [hp.1.1]
          simp [setCurE, Enc.left]
        rw [M.bind_ok h1]
        obtain ⟨cs, h2, h3⟩ := encFlags_w he m t v [] (s.left [] (some .le)) (by simpa using hse) (hsn.left _ _)
        rw [M.bind_ok h2]
        by_cases ha : absent e m t v
        · have ha' : t.isZero v = true ∧ (m.tag.option = true ∨ (e = .borsh ∧ m.tag.coption = true)) := ha
          rw [if_pos ha']
          rw [if_neg (by simp [ha])]
          have hb := h3 []
          rw [if_pos ha, List.append_nil] at hb
          obtain ⟨cs', c', g1, g2⟩ := ih ((s.left [] (some .le)).push cs) (by simpa using hse) hsn
          refine ⟨cs ++ cs', c', ?_, ?_⟩
          · simp only [inSeries, List.flatten_append, g1, hb]
          · rw [g2]
            simp [inSeries]
        · have ha' : ¬ (t.isZero v = true ∧ (m.tag.option = true ∨ (e = .borsh ∧ m.tag.coption = true))) := ha
          rw [if_neg ha']
          rw [if_pos (by simp [ha])]
          have hb := h3 (marshal e t v).2
          rw [if_neg ha] at hb
          have hopt : encCore e t (fieldOpt m []) v = encCore e t {} v := by
            unfold fieldOpt
            rw [hp.1.1]
            exact encCore_flags e t _ _ _ _ none .le v
          rw [hopt]
          have hc := (does_core he t v).series (f := fun _ => encFields e fs [] vs) ih
          have hcur : ((s.left [] (some .le)).push cs) = { (s.left [] (some .le)).push cs with cur := some Order.le } := rfl
          obtain ⟨cs', c', g1, g2⟩ := hc ((s.left [] (some .le)).push cs) (by simpa using hse) hsn
          have g3 : ((setCurE .le >>= fun _ => encCore e t {} v) >>= fun _ => encFields e fs [] vs) ((s.left [] (some .le)).push cs) =
              (encCore e t {} v >>= fun _ => encFields e fs [] vs) ((s.left [] (some .le)).push cs) := rfl
          rw [g3] at g2
          refine ⟨cs ++ cs', c', ?_, ?_⟩
          · rw [List.flatten_append, g1, hb]
            generalize marshal e t v = x
            obtain ⟨r, b⟩ := x
            cases r with
            | ok u => cases u; simp [inSeries, List.append_assoc]
            | _ => simp [inSeries]
          · rw [g2]
            generalize marshal e t v = x
            obtain ⟨r, b⟩ := x
            cases r with
            | ok u => cases u; simp [inSeries]
            | _ => simp [inSeries]
      · rw [if_pos (.inr (by simpa using hx)), hrec]
        rw [show ∀ f : List (Bytes × Int) → EM Unit, ((Pure.pure [] : EM _) >>= f) = f [] from fun _ => rfl, if_neg hx]
        exact skip

theorem Does.forEach {e : Encoding} {α : Type} {f : α → EM Unit} {g : α → List (Res Unit × Bytes)} :
    ∀ xs : List α, (∀ a ∈ xs, Does e (f a) (inSeries (g a))) → Does e (forEachM f xs) (inSeries (xs.flatMap g))
  | [], _ => Does.pure e
  | x :: xs, hf => by
    have h1 := hf x (by simp)
    have h2 := Does.forEach xs (fun a ha => hf a (by simp [ha]))
    have := h1.series (f := fun _ => forEachM f xs) h2
    have happ : ∀ (a b : List (Res Unit × Bytes)), inSeries (inSeries a :: b) = inSeries (a ++ b) := by
      intro a b
      induction a with
      | nil => simp [inSeries]
      | cons y a ih =>
        obtain ⟨r, c⟩ := y
        cases r with
        | ok u =>
          cases u
          simp only [inSeries, List.cons_append]
          rw [← ih]
          generalize inSeries a = z
          obtain ⟨r', c'⟩ := z
          cases r' with
          | ok u => cases u; simp [inSeries]
          | _ => simp [inSeries]
        | _ => simp [inSeries]
    have h3 : inSeries (inSeries (g x) :: xs.flatMap g) = inSeries ((x :: xs).flatMap g) := by
      rw [List.flatMap_cons, ← happ]
    rw [← h3]
    exact h1.series (f := fun _ => forEachM f xs) h2

end Verif
