import Verif.Spec.Messages
import Verif.Proofs.DecodeStable
/-!
Reads with numbers in their messages: they agree with the reads without (`Numbered`), and the numbers are right (`Tells`).
-/
set_option linter.unusedSimpArgs false
set_option linter.unusedSectionVars false
namespace Verif
open Spec

section
variable {α β γ : Type} {e : Encoding}

theorem TM.bind_apply (m : TM α) (f : α → TM β) (d : Dec) : (m >>= f) d = match m d with
    | (.ok a, d') => f a d'
    | (.err x, d') => (.err x, d')
    | (.panic, d') => (.panic, d') := rfl

theorem TM.bind_ok {m : TM α} {f : α → TM β} {d d' : Dec} {a : α} (h : m d = (.ok a, d')) : (m >>= f) d = f a d' := by
  rw [TM.bind_apply, h]
theorem TM.bind_err {m : TM α} {f : α → TM β} {d d' : Dec} {x : Msg} (h : m d = (.err x, d')) : (m >>= f) d = (.err x, d') := by
  rw [TM.bind_apply, h]
theorem TM.bind_panic {m : TM α} {f : α → TM β} {d d' : Dec} (h : m d = (.panic, d')) : (m >>= f) d = (.panic, d') := by
  rw [TM.bind_apply, h]
theorem TM.pure_apply (a : α) (d : Dec) : (pure a : TM α) d = (.ok a, d) := rfl

/-! ### Numbered -/

theorem Spec.Numbered.pure (a : α) : Numbered (pure a) (pure a) := fun _ => rfl
theorem Spec.Numbered.say (x : Msg) : Numbered (TM.say x : TM α) (M.err x.cls) := fun _ => rfl
theorem Spec.Numbered.panic : Numbered (TM.panic : TM α) M.panic := fun _ => rfl
theorem Spec.Numbered.get : Numbered TM.get M.get := fun _ => rfl

theorem Spec.Numbered.of (r : DM α) : Numbered (TM.of r) r := by
  intro d
  unfold TM.of
  rcases r d with ⟨a | x | _, d'⟩ <;> rfl

theorem Spec.Numbered.wrap {m : TM α} {r : DM α} (h : Numbered m r) : Numbered m.wrap r := by
  intro d
  rw [h d]
  unfold TM.wrap
  rcases m d with ⟨a | x | _, d'⟩ <;> rfl

theorem Spec.Numbered.bind {m : TM α} {r : DM α} {f : α → TM β} {g : α → DM β} (h1 : Numbered m r) (h2 : ∀ a, Numbered (f a) (g a)) :
    Numbered (m >>= f) (r >>= g) := by
  intro d
  rw [M.bind_apply, h1 d, TM.bind_apply]
  rcases m d with ⟨a | x | _, d'⟩
  · exact h2 a d'
  · rfl
  · rfl

theorem Spec.Numbered.ite {c : Prop} [Decidable c] {m m' : TM α} {r r' : DM α} (h1 : Numbered m r) (h2 : Numbered m' r') :
    Numbered (if c then m else m') (if c then r else r') := by
  by_cases h : c
  · rw [if_pos h, if_pos h]; exact h1
  · rw [if_neg h, if_neg h]; exact h2

theorem Spec.Numbered.rep {m : TM α} {r : DM α} (h : Numbered m r) : ∀ n, Numbered (TM.rep m n) (repeatM r n)
  | 0 => Numbered.pure _
  | n + 1 => by unfold TM.rep repeatM; exact h.bind fun _ => (Numbered.rep h n).bind fun _ => Numbered.pure _

theorem Spec.Numbered.trav {f : γ → TM α} {g : γ → DM α} (h : ∀ c, Numbered (f c) (g c)) : ∀ cs, Numbered (TM.trav f cs) (traverseM g cs)
  | [] => Numbered.pure _
  | c :: cs => by unfold TM.trav traverseM; exact (h c).bind fun _ => (Numbered.trav h cs).bind fun _ => Numbered.pure _

/-! ### Tells -/

theorem longer_inside {d : Dec} (h : Inside d) (ext : Bytes) : Inside (longer d ext) := by
  obtain ⟨h1, h2⟩ := h
  exact ⟨h1, by simp only [longer, List.length_append]; omega⟩

theorem longer_ext {d : Dec} (h : Inside d) (ext : Bytes) : Ext ext d (longer d ext) := by
  refine ⟨h, longer_inside h ext, ?_, rfl, rfl⟩
  obtain ⟨h1, h2⟩ := h
  simp only [Dec.rest, longer]
  exact List.drop_append_of_le_length (by omega)

/-- A call whose messages have no numbers. -/
theorem Spec.Tells.silent {m : TM α} {r : DM α} (hv : e.valid = true) (hn : Numbered m r) (hp : Prim r) (hs : Stable r)
    (hm : ∀ d x k, Inside d → d.enc = e → (m d).1 = .err x → missing x = some k →
      0 < k ∧ ∀ ext : Bytes,
        (ext.length < k → ∃ x', m (longer d ext) = (.err x', longer (m d).2 ext) ∧ missing x' = some (k - ext.length)) ∧
        (k ≤ ext.length → (m d).2.pos < (m (longer d ext)).2.pos)) : Tells e m := by
  have hst : ∀ d, Inside d → d.enc = e → ∃ k : Nat, (m d).2 = d.adv k ∧ k ≤ d.rest.length := by
    intro d hi he
    obtain ⟨res, k, h1, -, h3⟩ := hp d hi (by rw [he]; exact hv)
    rw [hn d] at h1
    exact ⟨k, (Prod.mk.inj h1).2, h3⟩
  refine ⟨?_, ?_, hm⟩
  · intro d hi he
    obtain ⟨k, h1, h2⟩ := hst d hi he
    have hl := Dec.rest_length hi
    rw [h1]
    simp only [Dec.remaining] at hl
    refine ⟨⟨?_, ?_⟩, ?_, rfl, he⟩ <;> simp only [Dec.adv] <;> have := hi.1 <;> have := hi.2 <;> omega
  · intro d a ext hi he ha
    have h1 : r d = (.ok a, (m d).2) := by rw [hn d, ha]; rfl
    obtain ⟨d2, h2, -, h3⟩ := hs ext d (longer d ext) (longer_ext hi ext) (by rw [he]; exact hv) a _ h1
    obtain ⟨k, h4, -⟩ := hst d hi he
    obtain ⟨k', h5, -⟩ := hst (longer d ext) (longer_inside hi ext) he
    rw [hn (longer d ext)] at h2
    have h6 := (Prod.mk.inj h2).2
    have h7 : (m (longer d ext)).1 = .ok a := by
      have := (Prod.mk.inj h2).1
      cases hx : (m (longer d ext)).1 with
      | ok b => rw [hx] at this; simp only [TRes.plain, Res.ok.injEq] at this; rw [this]
      | err x => rw [hx] at this; simp [TRes.plain] at this
      | panic => rw [hx] at this; simp [TRes.plain] at this
    refine Prod.ext h7 ?_
    rw [← h6, h5, h4] at h3
    simp only [Dec.adv, longer] at h3
    have hk : k' = k := by omega
    rw [h5, h4, hk]
    rfl

theorem Spec.Tells.of {r : DM α} (hv : e.valid = true) (hp : Prim r) (hs : Stable r) : Tells e (TM.of r) := by
  refine Tells.silent hv (Numbered.of r) hp hs ?_
  intro d x k _ _ hx hk
  exfalso
  unfold TM.of at hx
  rcases hr : r d with ⟨a | y | _, d'⟩ <;> rw [hr] at hx <;> simp at hx
  subst hx
  simp [missing] at hk

/-- A read of `n` bytes: fewer are reported, otherwise the cursor moves by `n`. -/
theorem Spec.Tells.sized {m : TM α} {r : DM α} {n : Int} (hv : e.valid = true) (hn : Numbered m r) (hp : Prim r) (hs : Stable r) (h0 : 0 < n)
    (hless : ∀ d, Inside d → left d < n → ∃ x, m d = (.err x, d) ∧ missing x = some (n - left d))
    (henough : ∀ d, Inside d → d.enc = e → n ≤ left d → (m d).2.pos = d.pos + n ∧ ∀ x, (m d).1 = .err x → missing x = none) : Tells e m := by
  refine Tells.silent hv hn hp hs ?_
  intro d x k hi he hx hk
  by_cases hl : left d < n
  · obtain ⟨x', h1, h2⟩ := hless d hi hl
    rw [h1] at hx ⊢
    simp only [TRes.err.injEq] at hx
    subst hx
    rw [hk] at h2
    simp only [Option.some.injEq] at h2
    refine ⟨by omega, fun ext => ⟨fun he' => ?_, fun he' => ?_⟩⟩
    · have hl' : left (longer d ext) = left d + ext.length := by simp only [left, longer, List.length_append]; omega
      obtain ⟨y, h3, h4⟩ := hless (longer d ext) (longer_inside hi ext) (by omega)
      exact ⟨y, h3, by rw [h4, hl']; congr 1; omega⟩
    · have hl' : left (longer d ext) = left d + ext.length := by simp only [left, longer, List.length_append]; omega
      rw [(henough (longer d ext) (longer_inside hi ext) he (by omega)).1]
      show d.pos < d.pos + n
      omega
  · have := (henough d hi he (by omega)).2 x hx
    rw [hk] at this
    simp at this

theorem Spec.Tells.pure (a : α) : Tells e (pure a) := by
  refine ⟨fun d hi he => ⟨hi, Int.le_refl _, rfl, he⟩, ?_, ?_⟩
  · intro d b ext _ _ h
    cases h; rfl
  · intro d x k _ _ h; cases h

theorem Spec.Tells.say {x : Msg} (hx : missing x = none) : Tells e (TM.say x : TM α) := by
  refine ⟨fun d hi he => ⟨hi, Int.le_refl _, rfl, he⟩, ?_, ?_⟩
  · intro d b ext _ _ h; simp [TM.say] at h
  · intro d y k _ _ h hk
    simp only [TM.say, TRes.err.injEq] at h
    subst h
    rw [hx] at hk; simp at hk

theorem Spec.Tells.panic : Tells e (TM.panic : TM α) := by
  refine ⟨fun d hi he => ⟨hi, Int.le_refl _, rfl, he⟩, ?_, ?_⟩
  · intro d b ext _ _ h; simp [TM.panic] at h
  · intro d y k _ _ h; simp [TM.panic] at h

theorem Spec.Tells.bind {m : TM α} {f : α → TM β} (h1 : Tells e m) (h2 : ∀ a, Tells e (f a)) : Tells e (m >>= f) := by
  have hst : ∀ d, Inside d → d.enc = e →
      Inside ((m >>= f) d).2 ∧ (m d).2.pos ≤ ((m >>= f) d).2.pos ∧ ((m >>= f) d).2.data = d.data ∧ ((m >>= f) d).2.enc = e := by
    intro d hi he
    obtain ⟨s1, s2, s3, s4⟩ := h1.stays d hi he
    rw [TM.bind_apply]
    rcases hm : m d with ⟨a | x | _, d'⟩ <;> rw [hm] at s1 s2 s3 s4
    · obtain ⟨t1, t2, t3, t4⟩ := (h2 a).stays d' s1 s4
      exact ⟨t1, t2, t3.trans s3, t4⟩
    · exact ⟨s1, Int.le_refl _, s3, s4⟩
    · exact ⟨s1, Int.le_refl _, s3, s4⟩
  refine ⟨?_, ?_, ?_⟩
  · intro d hi he
    obtain ⟨t1, t2, t3, t4⟩ := hst d hi he
    exact ⟨t1, Int.le_trans (h1.stays d hi he).2.1 t2, t3, t4⟩
  · intro d b ext hi he hb
    obtain ⟨s1, s2, s3, s4⟩ := h1.stays d hi he
    rw [TM.bind_apply] at hb
    rcases hm : m d with ⟨a | x | _, d'⟩ <;> rw [hm] at hb s1 s4
    · have := h1.more d a ext hi he (by rw [hm])
      rw [hm] at this
      rw [TM.bind_ok this, TM.bind_ok hm]
      exact (h2 a).more d' b ext s1 s4 hb
    · simp at hb
    · simp at hb
  · intro d x k hi he hx hk
    obtain ⟨s1, s2, s3, s4⟩ := h1.stays d hi he
    rcases hm : m d with ⟨a | y | _, d'⟩
    · rw [hm] at s1 s4
      rw [TM.bind_ok hm] at hx
      obtain ⟨k1, k2⟩ := (h2 a).says d' x k s1 s4 hx hk
      refine ⟨k1, fun ext => ?_⟩
      have := h1.more d a ext hi he (by rw [hm])
      rw [hm] at this
      rw [TM.bind_ok this, TM.bind_ok hm]
      exact k2 ext
    · rw [TM.bind_err hm] at hx
      simp only [TRes.err.injEq] at hx
      subst hx
      obtain ⟨k1, k2⟩ := h1.says d y k hi he (by rw [hm]) hk
      refine ⟨k1, fun ext => ⟨fun hl => ?_, fun hl => ?_⟩⟩
      · obtain ⟨x', h3, h4⟩ := (k2 ext).1 hl
        rw [TM.bind_err h3, TM.bind_err hm]
        rw [hm]
        exact ⟨x', rfl, h4⟩
      · have h3 := (k2 ext).2 hl
        have h4 := (hst (longer d ext) (longer_inside hi ext) he).2.1
        rw [TM.bind_err hm]
        rw [hm] at h3
        exact Int.lt_of_lt_of_le h3 h4
    · rw [TM.bind_panic hm] at hx; simp at hx

theorem TM.wrap_snd (m : TM α) (d : Dec) : (m.wrap d).2 = (m d).2 := by
  unfold TM.wrap; rcases m d with ⟨a | x | _, d'⟩ <;> rfl

theorem Spec.Tells.wrap {m : TM α} (h : Tells e m) : Tells e m.wrap := by
  refine ⟨?_, ?_, ?_⟩
  · intro d hi he; rw [TM.wrap_snd]; exact h.stays d hi he
  · intro d a ext hi he ha
    have hm : (m d).1 = .ok a := by
      unfold TM.wrap at ha
      rcases hm : m d with ⟨b | x | _, d'⟩ <;> rw [hm] at ha <;> simp at ha
      rw [ha]
    rw [TM.wrap_snd]
    have := h.more d a ext hi he hm
    unfold TM.wrap; rw [this]
  · intro d x k hi he hx hk
    rw [TM.wrap_snd]
    have hm : ∃ y, (m d).1 = .err y ∧ x = .within y := by
      unfold TM.wrap at hx
      rcases hm : m d with ⟨b | y | _, d'⟩ <;> rw [hm] at hx <;> simp at hx
      exact ⟨y, rfl, hx.symm⟩
    obtain ⟨y, h1, rfl⟩ := hm
    obtain ⟨k1, k2⟩ := h.says d y k hi he h1 hk
    refine ⟨k1, fun ext => ⟨fun hl => ?_, fun hl => ?_⟩⟩
    · obtain ⟨x', h3, h4⟩ := (k2 ext).1 hl
      exact ⟨.within x', by unfold TM.wrap; rw [h3], h4⟩
    · rw [TM.wrap_snd]; exact (k2 ext).2 hl

theorem Spec.Tells.ite {c : Prop} [Decidable c] {m m' : TM α} (h1 : c → Tells e m) (h2 : ¬ c → Tells e m') : Tells e (if c then m else m') := by
  by_cases h : c
  · rw [if_pos h]; exact h1 h
  · rw [if_neg h]; exact h2 h

theorem Spec.Tells.set {o : Order} {m : TM α} (h : Tells e m) : Tells e (TM.of (setCurD o) >>= fun _ => m) := by
  refine Tells.bind ⟨fun d hi he => ⟨hi, Int.le_refl _, rfl, he⟩, ?_, ?_⟩ fun _ => h
  · intro d a ext _ _ _; rfl
  · intro d x k _ _ hx; simp [TM.of, setCurD] at hx

theorem Spec.Tells.cur {f : Dec → TM α} {g : Option Order → TM α} (hf : ∀ d, f d = g d.cur) (h : ∀ c, Tells e (g c)) :
    Tells e (TM.get >>= f) := by
  have hg : ∀ d, (TM.get >>= f) d = g d.cur d := fun d => by rw [TM.bind_ok (show TM.get d = (.ok d, d) from rfl), hf]
  refine ⟨?_, ?_, ?_⟩
  · intro d; rw [hg]; exact (h d.cur).stays d
  · intro d a ext; rw [hg, hg]; exact (h d.cur).more d a ext
  · intro d x k
    rw [hg]
    have := (h d.cur).says d x k
    intro h1 h2 h3 h4
    obtain ⟨k1, k2⟩ := this h1 h2 h3 h4
    refine ⟨k1, fun ext => ?_⟩
    rw [hg]
    exact k2 ext

/-- A step that looks at the state only through the encoding. -/
theorem Spec.Tells.enc {f : Dec → TM α} {g : Encoding → TM α} (hf : ∀ d, f d = g d.enc) (h : Tells e (g e)) : Tells e (TM.get >>= f) := by
  have hg : ∀ d, d.enc = e → (TM.get >>= f) d = g e d := fun d he => by rw [TM.bind_ok (show TM.get d = (.ok d, d) from rfl), hf, he]
  refine ⟨?_, ?_, ?_⟩
  · intro d hi he; rw [hg d he]; exact h.stays d hi he
  · intro d a ext hi he; rw [hg d he, hg (longer d ext) he]; exact h.more d a ext hi he
  · intro d x k h1 h2
    rw [hg d h2]
    intro h3 h4
    obtain ⟨k1, k2⟩ := h.says d x k h1 h2 h3 h4
    refine ⟨k1, fun ext => ?_⟩
    rw [hg (longer d ext) h2]
    exact k2 ext

theorem Spec.Tells.enough {n : Int} {m : TM α} (h : Tells e m) :
    Tells e (TM.get >>= fun d : Dec => if n > d.remaining then TM.say (.plain .eof) else m) := by
  have h1 : ∀ d : Dec, n > d.remaining → (TM.get >>= fun d : Dec => if n > d.remaining then TM.say (.plain .eof) else m) d =
      (.err (.plain .eof), d) := by
    intro d hd; rw [TM.bind_ok (show TM.get d = (.ok d, d) from rfl), if_pos hd]; rfl
  have h2 : ∀ d : Dec, ¬ n > d.remaining → (TM.get >>= fun d : Dec => if n > d.remaining then TM.say (.plain .eof) else m) d = m d := by
    intro d hd; rw [TM.bind_ok (show TM.get d = (.ok d, d) from rfl), if_neg hd]
  have h3 : ∀ d ext, ¬ n > d.remaining → ¬ n > (longer d ext).remaining := by
    intro d ext hd
    simp only [Dec.remaining, longer, List.length_append] at hd ⊢
    omega
  refine ⟨?_, ?_, ?_⟩
  · intro d hi he
    by_cases hd : n > d.remaining
    · rw [h1 d hd]; exact ⟨hi, Int.le_refl _, rfl, he⟩
    · rw [h2 d hd]; exact h.stays d hi he
  · intro d a ext hi he
    by_cases hd : n > d.remaining
    · rw [h1 d hd]; simp
    · rw [h2 d hd, h2 _ (h3 d ext hd)]; exact h.more d a ext hi he
  · intro d x k hi he
    by_cases hd : n > d.remaining
    · rw [h1 d hd]; intro hx hk
      simp only [TRes.err.injEq] at hx
      subst hx; simp [missing] at hk
    · rw [h2 d hd]; intro hx hk
      obtain ⟨k1, k2⟩ := h.says d x k hi he hx hk
      refine ⟨k1, fun ext => ?_⟩
      rw [h2 _ (h3 d ext hd)]
      exact k2 ext

theorem Spec.Tells.rep {m : TM α} (h : Tells e m) : ∀ n, Tells e (TM.rep m n)
  | 0 => Tells.pure _
  | n + 1 => by unfold TM.rep; exact h.bind fun _ => (Tells.rep h n).bind fun _ => Tells.pure _

theorem Spec.Tells.trav {f : γ → TM α} (h : ∀ c, Tells e (f c)) : ∀ cs, Tells e (TM.trav f cs)
  | [] => Tells.pure _
  | c :: cs => by unfold TM.trav; exact (h c).bind fun _ => (Tells.trav h cs).bind fun _ => Tells.pure _


/-! ### Both at once -/

/-- `m` is `r` with numbers, and under the condition `P` they are right. -/
def Says {α : Type} (e : Encoding) (P : Prop) (m : TM α) (r : DM α) : Prop := Numbered m r ∧ (P → Tells e m)

variable {P : Prop}

theorem Says.pure (a : α) : Says e P (pure a) (pure a) := ⟨Spec.Numbered.pure a, fun _ => Spec.Tells.pure a⟩
theorem Says.plain (x : Err) : Says e P (TM.say (.plain x) : TM α) (M.err x) := ⟨Spec.Numbered.say _, fun _ => Spec.Tells.say rfl⟩
theorem Says.panic : Says e P (TM.panic : TM α) M.panic := ⟨Spec.Numbered.panic, fun _ => Spec.Tells.panic⟩
theorem Says.bind {m : TM α} {r : DM α} {f : α → TM β} {g : α → DM β} (h1 : Says e P m r) (h2 : ∀ a, Says e P (f a) (g a)) :
    Says e P (m >>= f) (r >>= g) :=
  ⟨Spec.Numbered.bind h1.1 fun a => (h2 a).1, fun h => (h1.2 h).bind fun a => (h2 a).2 h⟩
theorem Says.ite {c : Prop} [Decidable c] {m m' : TM α} {r r' : DM α} (h1 : c → Says e P m r) (h2 : ¬ c → Says e P m' r') :
    Says e P (if c then m else m') (if c then r else r') := by
  by_cases h : c
  · rw [if_pos h, if_pos h]; exact h1 h
  · rw [if_neg h, if_neg h]; exact h2 h
theorem Says.wrap {m : TM α} {r : DM α} (h : Says e P m r) : Says e P m.wrap r := ⟨Spec.Numbered.wrap h.1, fun hp => (h.2 hp).wrap⟩
theorem Says.rep {m : TM α} {r : DM α} (h : Says e P m r) (n : Nat) : Says e P (TM.rep m n) (repeatM r n) :=
  ⟨Spec.Numbered.rep h.1 n, fun hp => (h.2 hp).rep n⟩
theorem Says.trav {f : γ → TM α} {g : γ → DM α} (h : ∀ c, Says e P (f c) (g c)) (cs : List γ) :
    Says e P (TM.trav f cs) (traverseM g cs) :=
  ⟨Spec.Numbered.trav (fun c => (h c).1) cs, fun hp => Spec.Tells.trav (fun c => (h c).2 hp) cs⟩
theorem Says.set {o : Order} {m : TM α} {r : DM α} (h : Says e P m r) :
    Says e P (TM.of (setCurD o) >>= fun _ => m) (setCurD o >>= fun _ => r) :=
  ⟨Spec.Numbered.bind (Spec.Numbered.of _) fun _ => h.1, fun hp => (h.2 hp).set⟩
theorem Says.cur {f : Dec → TM α} {f' : Dec → DM α} {g : Option Order → TM α} {g' : Option Order → DM α} (hf : ∀ d, f d = g d.cur)
    (hf' : ∀ d, f' d = g' d.cur) (h : ∀ c, Says e P (g c) (g' c)) : Says e P (TM.get >>= f) (M.get >>= f') :=
  ⟨Spec.Numbered.bind Spec.Numbered.get fun d => by rw [hf, hf']; exact (h d.cur).1, fun hp => Spec.Tells.cur hf fun c => (h c).2 hp⟩
theorem Says.enough {n : Int} {m : TM α} {r : DM α} (h : Says e P m r) :
    Says e P (TM.get >>= fun d : Dec => if n > d.remaining then TM.say (.plain .eof) else m)
      (M.get >>= fun d : Dec => if n > d.remaining then M.err .eof else r) :=
  ⟨Spec.Numbered.bind Spec.Numbered.get fun _ => Spec.Numbered.ite (Spec.Numbered.say _) h.1, fun hp => (h.2 hp).enough⟩
theorem Says.of (hv : P → e.valid = true) {r : DM α} (hp : Prim r) (hs : Stable r) : Says e P (TM.of r) r :=
  ⟨Spec.Numbered.of r, fun h => Spec.Tells.of (hv h) hp hs⟩

/-- A read of `n` bytes. -/
theorem Says.sized {m : TM α} {r : DM α} {n : Int} (hv : P → e.valid = true) (hn : Numbered m r) (hp : Prim r) (hs : Stable r) (h0 : 0 < n)
    (hless : ∀ d, Inside d → left d < n → ∃ x, m d = (.err x, d) ∧ missing x = some (n - left d))
    (henough : ∀ d, Inside d → d.enc = e → n ≤ left d → (m d).2.pos = d.pos + n ∧ ∀ x, (m d).1 = .err x → missing x = none) :
    Says e P m r :=
  ⟨hn, fun h => Spec.Tells.sized (hv h) hn hp hs h0 hless henough⟩

theorem Spec.Numbered.ok {m : TM α} {r : DM α} (h : Numbered m r) {d d' : Dec} {a : α} (hr : r d = (.ok a, d')) : m d = (.ok a, d') := by
  rw [h d] at hr
  obtain ⟨h1, h2⟩ := Prod.mk.inj hr
  rcases hm : m d with ⟨b | x | _, d1⟩ <;> rw [hm] at h1 h2 <;> simp only [TRes.plain, Res.ok.injEq, reduceCtorEq] at h1 h2
  rw [h1, h2]

/-- The usual shape: a check with the message "required n bytes, remaining …", and then a read of `n` bytes that works. -/
theorem Says.guarded {m : TM α} {r : DM α} {n : Nat} {body : Dec → TM α} (hv : P → e.valid = true) (hn : Numbered m r) (hp : Prim r)
    (hs : Stable r) (h0 : 0 < n)
    (hm : m = TM.get >>= fun d => if d.remaining < (n : Int) then TM.say (.required n d.remaining) else body d)
    (hr : ∀ d, d.Ok → n ≤ d.rest.length → ∃ a, r d = (.ok a, d.adv n)) : Says e P m r := by
  refine Says.sized (n := n) hv hn hp hs (by omega) ?_ ?_
  · intro d _ hl
    refine ⟨.required n d.remaining, ?_, rfl⟩
    rw [hm, TM.bind_ok (show TM.get d = (.ok d, d) from rfl), if_pos (show d.remaining < _ from hl)]; rfl
  · intro d hi _ hl
    have := Dec.rest_length hi
    simp only [Dec.remaining] at this
    simp only [left] at hl
    obtain ⟨a, ha⟩ := hr d hi (by omega)
    rw [hn.ok ha]
    exact ⟨rfl, fun x hx => by simp at hx⟩

end

/-! ### The reads -/

section
variable {e : Encoding} {P : Prop} (hv : P → e.valid = true)
include hv

theorem readByteNum_says : Says e P readByteNum readByte := by
  refine Says.guarded (n := 1) hv ?_ readByte_prim readByte_stable (by omega) rfl ?_
  · exact Spec.Numbered.get.bind fun _ => Spec.Numbered.ite (Spec.Numbered.say _) (Spec.Numbered.of _)
  · intro d ho hl
    rw [readByte_eq ho]
    cases hr : d.rest with
    | nil => rw [hr] at hl; simp at hl
    | cons b t => exact ⟨b, rfl⟩

theorem readUint8Num_says : Says e P readUint8Num readUint8 := (readByteNum_says hv).bind fun _ => Says.pure _
theorem readInt8Num_says : Says e P readInt8Num readInt8 := (readByteNum_says hv).bind fun _ => Says.pure _

theorem readUint16Num_says (o : Order) : Says e P (readUint16Num o) (readUint16 o) := by
  refine Says.guarded (n := 2) hv ?_ (readUint16_prim o) (readUint16_stable o) (by omega) rfl ?_
  · exact Spec.Numbered.get.bind fun _ => Spec.Numbered.ite (Spec.Numbered.say _) (Spec.Numbered.of _)
  · intro d ho hl
    obtain ⟨v, hg, -⟩ := getUint_ok o 2 d.rest (by omega)
    exact ⟨v, by rw [readUint16_eq ho, if_neg (by omega), hg]⟩
theorem readInt16Num_says (o : Order) : Says e P (readInt16Num o) (readInt16 o) := (readUint16Num_says hv o).bind fun _ => Says.pure _

theorem readUint32Num_says (o : Order) : Says e P (readUint32Num o) (readUint32 o) := by
  refine Says.guarded (n := 4) hv ?_ (readUint32_prim o) (readUint32_stable o) (by omega) rfl ?_
  · exact Spec.Numbered.get.bind fun _ => Spec.Numbered.ite (Spec.Numbered.say _) (Spec.Numbered.of _)
  · intro d ho hl
    obtain ⟨v, hg, -⟩ := getUint_ok o 4 d.rest (by omega)
    exact ⟨v, by rw [readUint32_eq ho, if_neg (by omega), hg]⟩
theorem readInt32Num_says (o : Order) : Says e P (readInt32Num o) (readInt32 o) := (readUint32Num_says hv o).bind fun _ => Says.pure _

theorem readNBytesNum_says (n : Int) : Says e P (readNBytesNum n) (readNBytes n) := by
  have hnum : Numbered (readNBytesNum n) (readNBytes n) :=
    Spec.Numbered.ite (Spec.Numbered.pure _) (Spec.Numbered.ite (Spec.Numbered.say _)
      (Spec.Numbered.get.bind fun _ => Spec.Numbered.ite (Spec.Numbered.say _) (Spec.Numbered.of _)))
  by_cases h0 : n = 0
  · unfold readNBytesNum readNBytes
    rw [if_pos h0, if_pos h0]; exact Says.pure _
  by_cases h1 : n < 0 ∨ n > 0x7FFFFFFF
  · unfold readNBytesNum readNBytes
    rw [if_neg h0, if_neg h0, if_pos h1, if_pos h1]; exact Says.plain _
  refine Says.sized (n := n) hv hnum (readNBytes_prim n) (readNBytes_stable n) (by omega) ?_ ?_
  · intro d _ hl
    refine ⟨.missing (d.pos + n - d.data.length), ?_, ?_⟩
    · unfold readNBytesNum
      simp only [left] at hl
      rw [if_neg h0, if_neg h1, TM.bind_ok (show TM.get d = (.ok d, d) from rfl), if_pos (by omega)]; rfl
    · simp only [missing, left, Option.some.injEq]; omega
  · intro d hi _ hl
    have hlen := Dec.rest_length hi
    simp only [Dec.remaining] at hlen
    simp only [left] at hl
    have hr := readNBytes_eq hi n
    rw [if_neg h0, if_neg h1, if_neg (by omega)] at hr
    rw [hnum.ok hr]
    refine ⟨?_, fun x hx => by simp at hx⟩
    simp only [Dec.adv]; omega

theorem readUint64Num_says (o : Order) : Says e P (readUint64Num o) (readUint64 o) := by
  refine Says.guarded (n := 8) hv ?_ (readUint64_prim o) (readUint64_stable o) (by omega) rfl ?_
  · exact Spec.Numbered.get.bind fun _ => Spec.Numbered.ite (Spec.Numbered.say _)
      (Spec.Numbered.bind (readNBytesNum_says (e := e) hv 8).1 fun _ => Spec.Numbered.of _)
  · intro d ho hl
    obtain ⟨v, hg, -⟩ := getUint_ok o 8 d.rest (by omega)
    exact ⟨v, by rw [readUint64_eq ho, if_neg (by omega), hg]⟩
theorem readInt64Num_says (o : Order) : Says e P (readInt64Num o) (readInt64 o) := (readUint64Num_says hv o).bind fun _ => Says.pure _

theorem readUint128Num_says (o : Order) : Says e P (readUint128Num o) (readUint128 o) := by
  refine Says.guarded (n := 16) hv ?_ (readUint128_prim o) (readUint128_stable o) (by omega) rfl ?_
  · exact Spec.Numbered.get.bind fun _ => Spec.Numbered.ite (Spec.Numbered.say _) (Spec.Numbered.of _)
  · intro d ho hl
    rcases readUint128_eq ho o with ⟨h, -⟩ | ⟨lo, hi, t, -, -, h, -⟩
    · omega
    · exact ⟨_, h⟩
theorem readInt128Num_says (o : Order) : Says e P (readInt128Num o) (readInt128 o) := readUint128Num_says hv o
theorem readFloat128Num_says (o : Order) : Says e P (readFloat128Num o) (readFloat128 o) := (readUint128Num_says hv o).wrap

theorem readFloat32Num_says (o : Order) : Says e P (readFloat32Num o) (readFloat32 o) := by
  have hnum : Numbered (readFloat32Num o) (readFloat32 o) :=
    Spec.Numbered.get.bind fun _ => Spec.Numbered.ite (Spec.Numbered.say _) (Spec.Numbered.of _)
  refine Says.sized (n := 4) hv hnum (readFloat32_prim o) (readFloat32_stable o) (by omega) ?_ ?_
  · intro d _ hl
    refine ⟨.required 4 d.remaining, ?_, rfl⟩
    unfold readFloat32Num
    rw [TM.bind_ok (show TM.get d = (.ok d, d) from rfl), if_pos (show d.remaining < _ from hl)]; rfl
  · intro d hi _ hl
    have hlen := Dec.rest_length hi
    simp only [Dec.remaining] at hlen
    simp only [left] at hl
    obtain ⟨v, hg, -⟩ := getUint_ok o 4 d.rest (by omega)
    have hr := readFloat32_eq hi o
    rw [if_neg (by omega), hg] at hr
    rw [hnum d] at hr
    refine ⟨?_, ?_⟩
    · rw [(Prod.mk.inj hr).2]; rfl
    · intro x hx
      unfold readFloat32Num at hx
      rw [TM.bind_ok (show TM.get d = (.ok d, d) from rfl), if_neg (by simp only [Dec.remaining]; omega)] at hx
      unfold TM.of at hx
      split at hx <;> simp only [TRes.err.injEq, reduceCtorEq] at hx
      subst hx; rfl

theorem readFloat64Num_says (o : Order) : Says e P (readFloat64Num o) (readFloat64 o) := by
  have hnum : Numbered (readFloat64Num o) (readFloat64 o) :=
    Spec.Numbered.get.bind fun _ => Spec.Numbered.ite (Spec.Numbered.say _) (Spec.Numbered.of _)
  refine Says.sized (n := 8) hv hnum (readFloat64_prim o) (readFloat64_stable o) (by omega) ?_ ?_
  · intro d _ hl
    refine ⟨.required 8 d.remaining, ?_, rfl⟩
    unfold readFloat64Num
    rw [TM.bind_ok (show TM.get d = (.ok d, d) from rfl), if_pos (show d.remaining < _ from hl)]; rfl
  · intro d hi _ hl
    have hlen := Dec.rest_length hi
    simp only [Dec.remaining] at hlen
    simp only [left] at hl
    obtain ⟨v, hg, -⟩ := getUint_ok o 8 d.rest (by omega)
    have hr := readFloat64_eq hi o
    rw [if_neg (by omega), hg] at hr
    rw [hnum d] at hr
    refine ⟨?_, ?_⟩
    · rw [(Prod.mk.inj hr).2]; rfl
    · intro x hx
      unfold readFloat64Num at hx
      rw [TM.bind_ok (show TM.get d = (.ok d, d) from rfl), if_neg (by simp only [Dec.remaining]; omega)] at hx
      unfold TM.of at hx
      split at hx <;> simp only [TRes.err.injEq, reduceCtorEq] at hx
      subst hx; rfl

theorem readLengthNum_says : Says e P readLengthNum readLength := by
  have h : ∀ e' : Encoding, Says e P (match e' with
      | .bin => (TM.of readUvarint64 >>= fun val => if val > 0x7FFFFFFF then TM.say (.plain .eof) else pure val)
      | .borsh => (readUint32Num .le >>= fun val => if val > 0x7FFFFFFF then TM.say (.plain .eof) else pure val)
      | .compactU16 => TM.of readCompactU16
      | .other => TM.panic) (match e' with
      | .bin => (readUvarint64 >>= fun val => if val > 0x7FFFFFFF then M.err .eof else pure val)
      | .borsh => (readUint32 .le >>= fun val => if val > 0x7FFFFFFF then M.err .eof else pure val)
      | .compactU16 => readCompactU16
      | .other => M.panic) := by
    intro e'
    cases e'
    · exact (Says.of hv readUvarint64_prim readUvarint64_stable).bind fun _ => Says.ite (fun _ => Says.plain _) fun _ => Says.pure _
    · exact Says.of hv readCompactU16_prim readCompactU16_stable
    · exact (readUint32Num_says hv .le).bind fun _ => Says.ite (fun _ => Says.plain _) fun _ => Says.pure _
    · exact Says.panic
  refine ⟨Spec.Numbered.get.bind fun d => ?_, fun hp => ?_⟩
  · generalize d.enc = e'
    have := (h e').1
    cases e' <;> exact this
  · refine Spec.Tells.enc (g := fun e' => match e' with
      | .bin => (TM.of readUvarint64 >>= fun val => if val > 0x7FFFFFFF then TM.say (.plain .eof) else pure val)
      | .borsh => (readUint32Num .le >>= fun val => if val > 0x7FFFFFFF then TM.say (.plain .eof) else pure val)
      | .compactU16 => TM.of readCompactU16
      | .other => TM.panic) (fun d => ?_) ((h e).2 hp)
    cases d.enc <;> rfl

theorem sliceBodyNum_says (n : Nat) : Says e P (sliceBodyNum n) (sliceBody n) := by
  have hnum : Numbered (sliceBodyNum n) (sliceBody n) :=
    Spec.Numbered.get.bind fun _ => Spec.Numbered.ite (Spec.Numbered.say _) (Spec.Numbered.of _)
  have hok : ∀ d, Inside d → (n : Int) ≤ left d → ∃ a, sliceBodyNum n d = (.ok a, d.adv n) := by
    intro d hi hl
    have hlen := Dec.rest_length hi
    simp only [Dec.remaining] at hlen
    simp only [left] at hl
    have hr := sliceBody_eq hi n
    rw [if_neg (by omega)] at hr
    exact ⟨_, hnum.ok hr⟩
  by_cases h0 : n = 0
  · refine ⟨hnum, fun hp => Spec.Tells.silent (hv hp) hnum (sliceBody_prim n) (sliceBody_stable n) ?_⟩
    intro d x k hi _ hx
    obtain ⟨a, ha⟩ := hok d hi (by simp only [left]; have := hi.2; omega)
    rw [ha] at hx; simp at hx
  refine Says.sized (n := n) hv hnum (sliceBody_prim n) (sliceBody_stable n) (by omega) ?_ ?_
  · intro d _ hl
    refine ⟨.varlen n (d.pos + n - d.data.length), ?_, ?_⟩
    · unfold sliceBodyNum
      simp only [left] at hl
      rw [TM.bind_ok (show TM.get d = (.ok d, d) from rfl), if_pos (by omega)]; rfl
    · simp only [missing, left, Option.some.injEq]; omega
  · intro d hi _ hl
    obtain ⟨a, ha⟩ := hok d hi hl
    rw [ha]
    exact ⟨rfl, fun x hx => by simp at hx⟩

theorem readByteSliceNum_says : Says e P readByteSliceNum readByteSlice := (readLengthNum_says hv).bind (sliceBodyNum_says hv)
theorem readStringNum_says : Says e P readStringNum readString := readByteSliceNum_says hv
theorem safeReadUTF8StringNum_says : Says e P safeReadUTF8StringNum safeReadUTF8String := (readByteSliceNum_says hv).bind fun _ => Says.pure _
theorem readRustStringNum_says : Says e P readRustStringNum readRustString :=
  (readUint64Num_says hv .le).bind fun n => Says.ite (fun _ => Says.plain _) fun _ => readNBytesNum_says hv n
theorem readTypeIDNum_says : Says e P readTypeIDNum readTypeID := (readNBytesNum_says hv 8).bind fun _ => Says.pure _
theorem readOptionNum_says : Says e P readOptionNum readOption := (readByteNum_says hv).wrap.bind fun _ => Says.pure _
theorem readCOptionNum_says : Says e P readCOptionNum readCOption :=
  (readUint32Num_says hv .le).wrap.bind fun _ => Says.ite (fun _ => Says.plain _) fun _ => Says.pure _
theorem readBoolNum_says : Says e P readBoolNum readBool := by
  refine Says.guarded (n := 1) hv ?_ readBool_prim readBool_stable (by omega) rfl ?_
  · exact Spec.Numbered.get.bind fun _ => Spec.Numbered.ite (Spec.Numbered.say _)
      (Spec.Numbered.bind (Spec.Numbered.wrap (readByteNum_says (e := e) hv).1) fun _ => Spec.Numbered.pure _)
  · intro d ho hl
    rw [readBool_eq ho]
    cases hr : d.rest with
    | nil => rw [hr] at hl; simp at hl
    | cons b t => exact ⟨_, rfl⟩

/-! ### Decode -/

theorem unmarshalLibNum_says (l : Lib) (old : Val) : Says e P (unmarshalLibNum l old) (unmarshalLib l old) := by
  cases l <;> simp only [unmarshalLib, unmarshalLibNum]
  case safeString => exact (safeReadUTF8StringNum_says hv).bind fun _ => Says.pure _
  case bool => exact (readBoolNum_says hv).bind fun _ => Says.pure _
  case hexBytes => exact (readByteSliceNum_says hv).wrap.bind fun _ => Says.pure _
  case varint16 => exact (Says.of hv readVarint16_prim readVarint16_stable).wrap.bind fun _ => Says.pure _
  case varuint16 => exact (Says.of hv readUvarint16_prim readUvarint16_stable).wrap.bind fun _ => Says.pure _
  case varuint32 => exact (Says.of hv readUvarint64_prim readUvarint64_stable).wrap.bind fun _ => Says.pure _
  case varint32 => exact (Says.of hv readVarint32_prim readVarint32_stable).bind fun _ => Says.pure _
  case jsonFloat64 =>
    refine Says.cur (g := fun c => match c with
      | none => TM.panic
      | some o => do let n ← readFloat64Num o; Pure.pure (.float n)) (g' := fun c => match c with
      | none => M.panic
      | some o => do let n ← readFloat64 o; Pure.pure (.float n)) (fun _ => rfl) (fun _ => rfl) fun c => ?_
    cases c with
    | none => exact Says.panic
    | some o => exact (readFloat64Num_says hv o).bind fun _ => Says.pure _
  case int64 =>
    refine Says.cur (g := fun c => match c with
      | none => TM.panic
      | some o => do let n ← readInt64Num o; Pure.pure (.int n)) (g' := fun c => match c with
      | none => M.panic
      | some o => do let n ← readInt64 o; Pure.pure (.int n)) (fun _ => rfl) (fun _ => rfl) fun c => ?_
    cases c with
    | none => exact Says.panic
    | some o => exact (readInt64Num_says hv o).bind fun _ => Says.pure _
  case uint64 =>
    refine Says.cur (g := fun c => match c with
      | none => TM.panic
      | some o => do let n ← readUint64Num o; Pure.pure (.uint n)) (g' := fun c => match c with
      | none => M.panic
      | some o => do let n ← readUint64 o; Pure.pure (.uint n)) (fun _ => rfl) (fun _ => rfl) fun c => ?_
    cases c with
    | none => exact Says.panic
    | some o => exact (readUint64Num_says hv o).bind fun _ => Says.pure _
  case uint128 =>
    exact Says.cur (g := fun c => (readUint128Num (order128 c old.endianness) >>= fun r => Pure.pure (Val.u128 r.1 r.2 none)))
      (g' := fun c => (readUint128 (order128 c old.endianness) >>= fun r => Pure.pure (Val.u128 r.1 r.2 none)))
      (fun _ => rfl) (fun _ => rfl) fun c => (readUint128Num_says hv _).bind fun _ => Says.pure _
  case int128 =>
    exact Says.cur (g := fun c => (readInt128Num (order128 c old.endianness) >>= fun r => Pure.pure (Val.u128 r.1 r.2 none)))
      (g' := fun c => (readInt128 (order128 c old.endianness) >>= fun r => Pure.pure (Val.u128 r.1 r.2 none)))
      (fun _ => rfl) (fun _ => rfl) fun c => (readInt128Num_says hv _).bind fun _ => Says.pure _
  case float128 =>
    exact Says.cur (g := fun c => (readFloat128Num (order128 c old.endianness) >>= fun r => Pure.pure (Val.u128 r.1 r.2 none)))
      (g' := fun c => (readFloat128 (order128 c old.endianness) >>= fun r => Pure.pure (Val.u128 r.1 r.2 none)))
      (fun _ => rfl) (fun _ => rfl) fun c => (readFloat128Num_says hv _).bind fun _ => Says.pure _
  case emptyVariant => exact Says.pure _

theorem readUintWNum_says (w : Width) (o : Order) : Says e P (readUintWNum w o) (readUintW w o) := by
  cases w
  · exact readUint8Num_says hv
  · exact readUint16Num_says hv o
  · exact readUint32Num_says hv o
  · exact readUint64Num_says hv o

theorem readUintsNum_says (l : Int) (w : Width) : Says e P (readUintsNum l w) (readUints l w) := by
  unfold readUints readUintsNum
  refine Says.enough ?_
  have hword : Says e P (if l < 0 then TM.panic else do
        let ns ← TM.rep (readUintWNum w .le) l.toNat
        Pure.pure (ns.map Val.uint)) (if l < 0 then M.panic else do
        let ns ← repeatM (readUintW w .le) l.toNat
        Pure.pure (ns.map Val.uint)) :=
    Says.ite (fun _ => Says.panic) fun _ => ((readUintWNum_says hv w .le).rep _).bind fun _ => Says.pure _
  cases w
  · exact (readNBytesNum_says hv l).bind fun _ => Says.pure _
  · exact hword
  · exact hword
  · exact hword

theorem readSeqLenNum_says : Says e P (readSeqLenNum e) (readSeqLen e) := by
  cases e
  · exact readLengthNum_says hv
  · exact Says.of hv readCompactU16_prim readCompactU16_stable
  · exact readUint32Num_says hv .le
  · exact Says.panic

theorem readFlagNum_says : Says e P (readFlagNum e) (readFlag e) := by
  cases e
  · exact (readUint32Num_says hv .le).wrap.bind fun _ => Says.pure _
  · exact (readByteNum_says hv).wrap.bind fun _ => Says.pure _
  · exact (readOptionNum_says hv).wrap
  · exact (readByteNum_says hv).wrap.bind fun _ => Says.pure _

theorem decPlainNum_says (k : Kind) (o : Opt) : Says e P (decPlainNum e k o) (decPlain e k o) := by
  unfold decPlain decPlainNum
  cases k <;> simp only [decScalar, decScalarNum] <;> try exact Says.panic
  · exact (readBoolNum_says hv).bind fun _ => Says.pure _
  · rename_i w
    cases w <;> simp only [decScalar, decScalarNum]
    · exact (readByteNum_says hv).bind fun _ => Says.pure _
    · exact (readUint16Num_says hv _).bind fun _ => Says.pure _
    · exact (readUint32Num_says hv _).bind fun _ => Says.pure _
    · exact (readUint64Num_says hv _).bind fun _ => Says.pure _
  · rename_i w
    cases w <;> simp only [decScalar, decScalarNum]
    · exact (readInt8Num_says hv).bind fun _ => Says.pure _
    · exact (readInt16Num_says hv _).bind fun _ => Says.pure _
    · exact (readInt32Num_says hv _).bind fun _ => Says.pure _
    · exact (readInt64Num_says hv _).bind fun _ => Says.pure _
  · exact (readFloat32Num_says hv _).bind fun _ => Says.pure _
  · exact (readFloat64Num_says hv _).bind fun _ => Says.pure _
  · exact Says.bind (Says.ite (fun _ => readRustStringNum_says hv) fun _ => readStringNum_says hv) fun _ => Says.pure _

theorem decFieldNum_says (t : Ty) (o : Opt) (old : Val) {core : TM Val} {core' : DM Val} (h : Says e P core core') :
    Says e P (decFieldNum e t o old core) (decField e t o old core') := by
  have hco := (readCOptionNum_says hv).wrap
  unfold decField decFieldNum
  refine Says.set ?_
  refine Says.ite (fun _ => Says.ite (fun _ => Says.panic) fun _ => ?_) fun _ => Says.ite (fun _ => ?_) fun _ => h
  · refine (readFlagNum_says hv).bind fun b => Says.ite (fun _ => ?_) fun _ => Says.pure _
    refine Says.ite (fun _ => Says.ite (fun _ => Says.panic) fun _ => ?_) fun _ => h
    exact hco.bind fun b => Says.ite (fun _ => h) fun _ => Says.pure _
  · exact Says.ite (fun _ => Says.panic) fun _ => hco.bind fun b => Says.ite (fun _ => h) fun _ => Says.pure _

omit hv in
theorem recordSizeNum_says (m : FieldMeta) (t : Ty) (x : Val) (sm : List (Bytes × Int)) :
    Says e P (TM.of (recordSize m t x sm)) (recordSize m t x sm) := by
  refine ⟨Spec.Numbered.of _, fun _ => ?_⟩
  have h : ∃ r : Res (List (Bytes × Int)), ∀ d : Dec, recordSize m t x sm d = (r, d) := by
    unfold recordSize
    by_cases hs : m.tag.sizeOf = []
    · rw [if_pos hs]; exact ⟨.ok sm, fun _ => rfl⟩
    · rw [if_neg hs]
      cases hz : sizeofVal t.kind x with
      | ok n => exact ⟨_, fun d => by rw [M.bind_apply]; rfl⟩
      | err x => exact ⟨.err x, fun d => by rw [M.bind_apply]; rfl⟩
      | panic => exact ⟨.panic, fun d => by rw [M.bind_apply]; rfl⟩
  obtain ⟨r, hr⟩ := h
  have : TM.of (recordSize m t x sm) = fun d => (match r with | .ok a => (.ok a, d) | .err x => (.err (.plain x), d) | .panic => (.panic, d)) := by
    funext d
    unfold TM.of
    rw [hr d]
    cases r <;> rfl
  rw [this]
  cases r with
  | ok a => exact Spec.Tells.pure a
  | err x => exact Spec.Tells.say (x := .plain x) rfl
  | panic => exact Spec.Tells.panic

mutual
theorem decCoreNum_says : (t : Ty) → (P → noExtension t = true) → (o : Opt) → (old : Val) → Says e P (decCoreNum e t o old) (decCore e t o old)
  | .lib l, _, o, old => by simp only [decCore, decCoreNum]; exact unmarshalLibNum_says hv l old
  | .ptr t, h, o, old => by
    simp only [decCore, decCoreNum]
    exact (decCoreNum_says t (fun hp => by simpa [noExtension] using h hp) o _).bind fun _ => Says.pure _
  | .slice t, h, o, old => by
    simp only [decCore, decCoreNum]
    have ht := decCoreNum_says t (fun hp => by simpa [noExtension] using h hp) {} t.zero
    have hcont : ∀ l : Int, Says e P (if e = .borsh ∧ l = 0 then Pure.pure old
        else do
          let d ← TM.get
          if l > d.remaining then TM.say (.plain .eof)
          else
            match t.uintKind with
            | some w => do
              let xs ← readUintsNum l w
              Pure.pure (.seq (some xs))
            | none => do
              let xs ← TM.rep (do TM.of (setCurD .le); decCoreNum e t {} t.zero) l.toNat
              Pure.pure (.seq (some xs))) (if e = .borsh ∧ l = 0 then Pure.pure old
        else do
          let d ← M.get
          if l > d.remaining then M.err .eof
          else
            match t.uintKind with
            | some w => do
              let xs ← readUints l w
              Pure.pure (.seq (some xs))
            | none => do
              let xs ← repeatM (do setCurD .le; decCore e t {} t.zero) l.toNat
              Pure.pure (.seq (some xs))) := by
      intro l
      refine Says.ite (fun _ => Says.pure _) fun _ => Says.enough ?_
      cases t.uintKind with
      | some w => exact (readUintsNum_says hv l w).bind fun _ => Says.pure _
      | none => exact (ht.set.rep _).bind fun _ => Says.pure _
    cases o.sizeOf with
    | some s => exact (Says.pure s).bind hcont
    | none => exact (readSeqLenNum_says hv).bind fun n => hcont n
  | .array n t, h, o, old => by
    simp only [decCore, decCoreNum]
    have ht := decCoreNum_says t (fun hp => by simpa [noExtension] using h hp)
    cases t.uintKind with
    | some w => exact (readUintsNum_says hv n w).bind fun _ => Says.pure _
    | none => exact (Says.trav (fun y => (ht {} y).set) _).bind fun _ => Says.pure _
  | .map k t, h, o, old => by
    simp only [noExtension, Bool.and_eq_true] at h
    simp only [decCore, decCoreNum]
    refine (readSeqLenNum_says hv).bind fun l => Says.ite (fun _ => Says.pure _) fun _ => ?_
    refine (Says.rep ?_ l).bind fun _ => Says.pure _
    exact ((decCoreNum_says k (fun hp => (h hp).1) {} _).bind fun x =>
      ((decCoreNum_says t (fun hp => (h hp).2) {} _).bind fun y => Says.pure _).set).set
  | .struct fs, h, o, old => by
    simp only [noExtension] at h
    simp only [decCore, decCoreNum, decStruct, decStructNum]
    refine Says.ite (fun _ => ?_) fun _ => (decFieldsNum_says fs h [] false _).bind fun _ => Says.pure _
    refine (readUint8Num_says hv).bind fun tag => Says.ite (fun _ => Says.plain _) fun _ => ?_
    exact (decNthNum_says fs h _ _).bind fun _ => Says.pure _
  | .iface, _, _, _ => by simp only [decCore, decCoreNum]; exact Says.pure _
  | .bool, _, o, _ => by simp only [decCore, decCoreNum]; exact decPlainNum_says hv _ o
  | .uint w _, _, o, _ => by simp only [decCore, decCoreNum]; exact decPlainNum_says hv _ o
  | .int w _, _, o, _ => by simp only [decCore, decCoreNum]; exact decPlainNum_says hv _ o
  | .borshEnum, _, o, _ => by simp only [decCore, decCoreNum]; exact decPlainNum_says hv _ o
  | .f32, _, o, _ => by simp only [decCore, decCoreNum]; exact decPlainNum_says hv _ o
  | .f64, _, o, _ => by simp only [decCore, decCoreNum]; exact decPlainNum_says hv _ o
  | .str, _, o, _ => by simp only [decCore, decCoreNum]; exact decPlainNum_says hv _ o
  | .plainInt, _, _, _ => by simp only [decCore, decCoreNum]; exact Says.plain _
  | .plainUint, _, _, _ => by simp only [decCore, decCoreNum]; exact Says.plain _
  | .other, _, _, _ => by simp only [decCore, decCoreNum]; exact Says.plain _
termination_by structural t => t
theorem decFieldsNum_says : (fs : Fields) → (P → noExtensions fs = true) → (sm : List (Bytes × Int)) →
    (seen : Bool) → (vs : List Val) → Says e P (decFieldsNum e fs sm seen vs) (decFields e fs sm seen vs)
  | .nil, _, _, _, _ => by simp only [decFields, decFieldsNum]; exact Says.pure _
  | .cons m t fs, _, _, _, [] => by simp only [decFields, decFieldsNum]; exact Says.panic
  | .cons m t fs, h, sm, seen, v :: vs => by
    simp only [noExtensions, Bool.and_eq_true] at h
    have hrec := decFieldsNum_says fs fun hp => (h hp).2
    simp only [decFields, decFieldsNum]
    refine Says.ite (fun _ => (hrec _ _ _).bind fun _ => Says.pure _) fun hsk => Says.ite (fun _ => Says.panic) fun _ => ?_
    have hx : Says e P (TM.of (extensionEnds m)) (extensionEnds m) := by
      refine ⟨Spec.Numbered.of _, fun hp => ?_⟩
      have hb : m.tag.binExt = false := by
        have := (h hp).1.1
        simp only [Bool.or_eq_true, Bool.not_eq_true'] at this
        exact this.resolve_left hsk
      have hx : extensionEnds m = Pure.pure false := by unfold extensionEnds; rw [if_neg (by simp [hb])]
      rw [hx]
      exact Spec.Tells.pure false
    refine hx.bind fun atEnd => Says.ite (fun _ => (hrec _ _ _).bind fun _ => Says.pure _) fun _ => ?_
    cases (if e = .borsh then t.directLib else none) with
    | some p => exact (unmarshalLibNum_says hv _ _).bind fun _ => (hrec _ _ _).bind fun _ => Says.pure _
    | none =>
      exact (decFieldNum_says hv t _ v (decCoreNum_says t (fun hp => (h hp).1.2) _ v)).wrap.bind fun x => (recordSizeNum_says m t x sm).bind fun sm' =>
        (hrec _ _ _).bind fun _ => Says.pure _
termination_by structural fs => fs
theorem decNthNum_says : (fs : Fields) → (P → noExtensions fs = true) → (i : Nat) → (vs : List Val) →
    Says e P (decNthNum e fs i vs) (decNth e fs i vs)
  | .nil, _, i, vs => by simp only [decNth, decNthNum]; exact Says.panic
  | .cons m t fs, _, i, [] => by simp only [decNth, decNthNum]; exact Says.panic
  | .cons m t fs, h, 0, v :: vs => by
    simp only [noExtensions, Bool.and_eq_true] at h
    simp only [decNth, decNthNum]
    exact ((decCoreNum_says t (fun hp => (h hp).1.2) {} v).bind fun _ => Says.pure _).set
  | .cons m t fs, h, i + 1, v :: vs => by
    simp only [noExtensions, Bool.and_eq_true] at h
    simp only [decNth, decNthNum]
    exact (decNthNum_says fs (fun hp => (h hp).2) i vs).bind fun _ => Says.pure _
termination_by structural fs => fs
end

theorem decodeNum_tells (hp : P) (t : Ty) (h : noExtension t = true) (old : Val) : Tells e (decodeNum t old) := by
  have hne : ¬ e = .other := by intro h; have := hv hp; rw [h] at this; cases this
  unfold decodeNum
  refine Spec.Tells.enc (g := fun e' => if e' = .other then TM.panic else TM.of (setCurD .le) >>= fun _ => decCoreNum e' t {} old)
    (fun d => rfl) ?_
  show Tells e (if e = .other then TM.panic else _)
  rw [if_neg hne]
  exact ((decCoreNum_says hv t (fun _ => h) {} old).2 hp).set

end

theorem decodeNum_numbered (t : Ty) (old : Val) : Numbered (decodeNum t old) (decode t old) := by
  unfold decodeNum decode
  refine Spec.Numbered.get.bind fun d => Spec.Numbered.ite Spec.Numbered.panic (Spec.Numbered.bind (Spec.Numbered.of _) fun _ => ?_)
  exact (decCoreNum_says (e := d.enc) (P := False) (fun h => h.elim) t (fun h => h.elim) {} old).1

end Verif
