import Verif.Proofs.DecodeInto
import Verif.Proofs.DecodeSafe
/-!
# The destination has the right shape after every decode, failed or not
-/
set_option linter.unusedSimpArgs false
namespace Verif
open Spec

/-- Like `Safe`, with `Q` for the destination whatever the outcome. -/
def Fills {α : Type} (e : Encoding) (N : Nat) (f : Fill α) (Q : α → Prop) : Prop :=
  ∀ d : Dec, d.Ok → d.enc = e → d.cur ≠ none → d.rest.length ≤ N →
    ∃ res a k c, f d = (res, a, d.to k c) ∧ c ≠ none ∧ k ≤ d.rest.length ∧ res ≠ .panic ∧ Q a

section
variable {α β : Type} {e : Encoding} {N : Nat}

theorem Fills.done {Q : α → Prop} (a : α) (h : Q a) : Fills e N (.done a) Q := by
  intro d _ _ hc _
  exact ⟨.ok (), a, 0, d.cur, by simp [Fill.done, Dec.to], hc, by omega, by simp, h⟩

theorem Fills.stop {Q : α → Prop} (x : Err) (a : α) (h : Q a) : Fills e N (.stop (.err x) a) Q := by
  intro d _ _ hc _
  exact ⟨.err x, a, 0, d.cur, by simp [Fill.stop, Dec.to], hc, by omega, by simp, h⟩

theorem Fills.assign {m : DM α} {kept : α} {Q : α → Prop} (h : Safe e N m Q) (hk : Q kept) :
    Fills e N (.assign m kept) Q := by
  intro d ho he hc hN
  obtain ⟨res, k, c, hr, hc1, hkl, hp, hq⟩ := h d ho he hc hN
  unfold Fill.assign
  cases res with
  | panic => exact absurd rfl hp
  | err x => exact ⟨.err x, kept, k, c, by simp only [hr], hc1, hkl, by simp, hk⟩
  | ok a => exact ⟨.ok (), a, k, c, by simp only [hr], hc1, hkl, by simp, hq a rfl⟩

theorem Fills.after {m : DM α} {f : α → Fill β} {g : Fill β} {P : α → Prop} {Q : β → Prop} {d : Dec}
    (ho : d.Ok) (he : d.enc = e) (hN : d.rest.length ≤ N) {a : α} {k : Nat} {c : Option Order} (hk : k ≤ d.rest.length)
    (hc : c ≠ none) (hg : g d = f a (d.to k c)) (ha : P a) (h2 : ∀ a, P a → Fills e N (f a) Q) :
    ∃ res b k c, g d = (res, b, d.to k c) ∧ c ≠ none ∧ k ≤ d.rest.length ∧ res ≠ .panic ∧ Q b := by
  have hrest : (d.to k c).rest.length = d.rest.length - k := by
    rw [Dec.to_rest, Dec.adv_rest ho, List.length_drop]
  obtain ⟨res2, b, k2, c2, hr2, hc2, hk2, hp2, hq2⟩ := h2 a ha (d.to k c) (Dec.to_ok (Dec.adv_ok ho hk)) he hc
    (by rw [hrest]; omega)
  refine ⟨res2, b, k + k2, c2, by rw [hg, hr2, Dec.to_to], hc2, ?_, hp2, hq2⟩
  rw [hrest] at hk2; omega

theorem Fills.read {m : DM α} {kept : β} {f : α → Fill β} {P : α → Prop} {Q : β → Prop} (h1 : Safe e N m P) (hk : Q kept)
    (h2 : ∀ a, P a → Fills e N (f a) Q) : Fills e N (.read m kept f) Q := by
  intro d ho he hc hN
  obtain ⟨res, k, c, hr, hc1, hkl, hp, hq⟩ := h1 d ho he hc hN
  cases res with
  | panic => exact absurd rfl hp
  | err x => exact ⟨.err x, kept, k, c, by simp only [Fill.read, hr], hc1, hkl, by simp, hk⟩
  | ok a => exact Fills.after (m := m) (f := f) ho he hN hkl hc1 (by simp only [Fill.read, hr]) (hq a rfl) h2

theorem Fills.part {f : Fill α} {whole : α → β} {g : α → Fill β} {P : α → Prop} {Q : β → Prop} (h1 : Fills e N f P)
    (hk : ∀ a, P a → Q (whole a)) (h2 : ∀ a, P a → Fills e N (g a) Q) : Fills e N (.part f whole g) Q := by
  intro d ho he hc hN
  obtain ⟨res, a, k, c, hr, hc1, hkl, hp, hq⟩ := h1 d ho he hc hN
  cases res with
  | panic => exact absurd rfl hp
  | err x => exact ⟨.err x, whole a, k, c, by simp only [Fill.part, hr], hc1, hkl, by simp, hk a hq⟩
  | ok u => exact Fills.after (m := f.run) (f := g) ho he hN hkl hc1 (by simp only [Fill.part, hr]) hq h2

theorem Fills.wrap {f : Fill α} {whole : α → β} {P : α → Prop} {Q : β → Prop} (h1 : Fills e N f P)
    (hk : ∀ a, P a → Q (whole a)) : Fills e N (f.wrap whole) Q :=
  h1.part hk fun a ha => Fills.done _ (hk a ha)

theorem Fills.set {o : Order} {kept : α} {f : Fill α} {Q : α → Prop} (h : Fills e N f Q) :
    Fills e N (.read (setCurD o) kept fun _ => f) Q := by
  intro d ho he _ hN
  obtain ⟨res, a, k, c, hr, hc1, hk, hp, hq⟩ := h { d with cur := some o } ho he (by simp) hN
  refine ⟨res, a, k, c, ?_, hc1, hk, hp, hq⟩
  simp only [Fill.read, setCurD, M.modify_apply]
  rw [hr]; rfl

theorem Fills.get {kept : α} {f : Dec → Fill α} {Q : α → Prop}
    (h : ∀ d0 : Dec, d0.Ok → d0.enc = e → d0.cur ≠ none → d0.rest.length ≤ N → Fills e N (f d0) Q) :
    Fills e N (.read M.get kept f) Q := by
  intro d ho he hc hN
  exact h d ho he hc hN d ho he hc hN

theorem Fills.ite {c : Prop} [Decidable c] {r s : Fill α} {Q : α → Prop} (h1 : c → Fills e N r Q) (h2 : ¬ c → Fills e N s Q) :
    Fills e N (if c then r else s) Q := by
  by_cases h : c
  · rw [if_pos h]; exact h1 h
  · rw [if_neg h]; exact h2 h

theorem Fills.collect {f : Fill α} {Q : α → Prop} (h : Fills e N f Q) (n : Nat) :
    Fills e N (.collect f n) fun xs => xs.length ≤ n ∧ ∀ x ∈ xs, Q x := by
  induction n with
  | zero => exact Fills.done _ ⟨Nat.le_refl _, by simp⟩
  | succ n ih =>
    unfold Fill.collect
    refine h.part (fun _ _ => ⟨by simp, by simp⟩) fun a ha => ih.wrap fun xs hxs => ⟨by simp; exact hxs.1, ?_⟩
    intro x hx
    rcases List.mem_cons.mp hx with rfl | hx
    · exact ha
    · exact hxs.2 x hx

theorem Fills.inPlace {f : α → Fill α} {Q : α → Prop} (ys : List α) (h : ∀ y ∈ ys, Fills e N (f y) Q) (hy : ∀ y ∈ ys, Q y) :
    Fills e N (.inPlace f ys) fun xs => xs.length = ys.length ∧ ∀ x ∈ xs, Q x := by
  induction ys with
  | nil => exact Fills.done _ ⟨rfl, by simp⟩
  | cons y ys ih =>
    unfold Fill.inPlace
    refine (h y (by simp)).part (fun a ha => ⟨by simp, ?_⟩) fun a ha =>
      (ih (fun z hz => h z (by simp [hz])) fun z hz => hy z (by simp [hz])).wrap fun xs hxs =>
      ⟨by rw [List.length_cons, hxs.1, List.length_cons], ?_⟩
    · intro x hx
      rcases List.mem_cons.mp hx with rfl | hx
      · exact ha
      · exact hy x (by simp [hx])
    · intro x hx
      rcases List.mem_cons.mp hx with rfl | hx
      · exact ha
      · exact hxs.2 x hx
end

theorem allocated_shaped {N : Nat} : (t : Ty) → (v : Val) → Shaped N t v → Shaped N t (allocated t v)
  | .ptr t, v, h => by
    simp only [allocated, Shaped]
    refine allocated_shaped t _ ?_
    cases v with
    | ptr p =>
      cases p with
      | none => exact zero_shaped N t
      | some x => simpa [Shaped, Val.deref] using h
    | _ => simp [Shaped] at h
  | .bool, _, h | .uint _ _, _, h | .int _ _, _, h | .borshEnum, _, h | .f32, _, h | .f64, _, h | .str, _, h
  | .lib _, _, h | .slice _, _, h | .array _ _, _, h | .map _ _, _, h | .struct _, _, h | .iface, _, h | .plainInt, _, h
  | .plainUint, _, h | .other, _, h => by simpa only [allocated] using h
termination_by structural t => t

theorem fillField_safe {e : Encoding} {N : Nat} (hv : e.valid = true) (t : Ty) (o : Opt) (old : Val) (core : Fill Val)
    (hold : Shaped N t old) (h1 : o.optional = true → t.asLib = none)
    (h2 : e = .borsh → o.coptional = true → t.asLib = none ∧ (o.optional = true → t.baseLib = false))
    (hc : Fills e N core (Shaped N t)) : Fills e N (fillField e t o old core) (Shaped N t) := by
  unfold fillField
  refine Fills.set ?_
  refine Fills.ite (fun ho => ?_) (fun ho => ?_)
  · rw [if_neg (by rw [h1 ho]; simp)]
    refine Fills.read ((readFlag_prim hv).safe hv) hold fun b _ => Fills.ite (fun _ => ?_) fun _ =>
      Fills.done _ (absentVal_shaped t old hold)
    refine Fills.ite (fun hco => ?_) fun _ => hc
    rw [if_neg (by rw [(h2 hco.1 hco.2).2 ho]; simp)]
    exact Fills.read (readCOption_prim.safe hv) (allocated_shaped t old hold) fun b _ => Fills.ite (fun _ => hc) fun _ =>
      Fills.done _ (absentBase_shaped t)
  · refine Fills.ite (fun hco => ?_) fun _ => hc
    rw [if_neg (by rw [(h2 hco.1 hco.2).1]; simp)]
    exact Fills.read (readCOption_prim.safe hv) hold fun b _ => Fills.ite (fun _ => hc) fun _ =>
      Fills.done _ (absentVal_shaped t old hold)

mutual
theorem fillCore_safe {e : Encoding} {N : Nat} (hv : e.valid = true) : (t : Ty) → (neg : Bool) → (o : Opt) → (old : Val) →
    decodable e t neg = true → Shaped N t old → (∀ s, o.sizeOf = some s → s < 0 → neg = true) →
    Fills e N (fillCore e t o old) (Shaped N t)
  | .lib l, neg, o, old, hd, hs, hn => by
    have := decCore_safe hv (.lib l) neg o old hd hs hn
    simp only [decCore, fillCore] at this ⊢
    exact Fills.assign this hs
  | .ptr t, neg, o, old, hd, hs, hn => by
    simp only [fillCore]
    refine (fillCore_safe hv t neg o (old.deref t) (by simpa [decodable] using hd) ?_ hn).wrap fun x hx => by
      simpa [Shaped] using hx
    cases old with
    | ptr p =>
      cases p with
      | none => exact zero_shaped N t
      | some x => simpa [Shaped, Val.deref] using hs
    | _ => simp [Shaped] at hs
  | .slice t, neg, o, old, hd, hs, hn => by
    simp only [decodable, Bool.and_eq_true] at hd
    simp only [fillCore]
    have hcont : ∀ l : Int, (l < 0 → neg = true) → Fills e N (if e = .borsh ∧ l = 0 then .done old
        else
          .read M.get old fun d =>
          if l > d.remaining then .stop (.err .eof) old
          else
            match t.uintKind with
            | some w => .assign (do let xs ← readUints l w; pure (.seq (some xs))) old
            | none =>
              (Fill.collect (.read (setCurD .le) t.zero fun _ => fillCore e t {} t.zero) l.toNat).wrap
                fun xs => .seq (some xs)) (Shaped N (.slice t)) := by
      intro l hl
      refine Fills.ite (fun _ => Fills.done _ hs) fun _ => Fills.get fun d0 ho _ _ hN =>
        Fills.ite (fun _ => Fills.stop _ _ hs) fun hle => ?_
      have hrem := d0.rest_length ho
      cases hu : t.uintKind with
      | some w =>
        refine Fills.assign ((readUints_safe hv l w ?_).map fun xs hxs => ?_) hs
        · intro h
          have h1 := hd.1
          rw [hl h, hu] at h1
          cases w <;> simp at h1 <;> rfl
        · simp only [Shaped, Option.getD_some]
          refine ⟨hxs.2.1, fun x hx => ?_⟩
          obtain ⟨n, rfl⟩ := hxs.2.2 x hx
          exact uint_shaped hu n
      | none =>
        refine (((fillCore_safe hv t false {} t.zero hd.2 (zero_shaped N t) (by simp)).set (o := .le)).collect l.toNat).wrap
          fun xs hxs => ?_
        simp only [Shaped, Option.getD_some]
        exact ⟨by omega, hxs.2⟩
    cases ho : o.sizeOf with
    | some s =>
      exact Fills.read (Safe.pure (Q := fun l => l = s) s rfl) hs fun l hl => hcont l (by rw [hl]; exact hn s ho)
    | none =>
      exact Fills.read (((readSeqLen_prim hv).safe hv).map (Q := fun l : Int => 0 ≤ l) fun n _ => by omega) hs
        fun n hn => hcont n (by omega)
  | .array n t, neg, o, old, hd, hs, _ => by
    simp only [decodable] at hd
    simp only [fillCore]
    cases hu : t.uintKind with
    | some w =>
      refine Fills.assign ((readUints_safe hv n w (by omega)).map fun xs hxs => ?_) hs
      simp only [Shaped]
      refine ⟨by omega, fun x hx => ?_⟩
      obtain ⟨n, rfl⟩ := hxs.2.2 x hx
      exact uint_shaped hu n
    | none =>
      cases old with
      | arr ys =>
        simp only [Shaped] at hs
        simp only [Val.elems]
        refine (Fills.inPlace ys (fun y hy => (fillCore_safe hv t false {} y hd (hs.2 y hy) (by simp)).set) hs.2).wrap
          fun xs hxs => ?_
        simp only [Shaped]
        exact ⟨by rw [hxs.1, hs.1], hxs.2⟩
      | _ => simp [Shaped] at hs
  | .map k t, neg, o, old, hd, hs, _ => by
    simp only [decodable, Bool.and_eq_true] at hd
    simp only [fillCore]
    refine Fills.read ((readSeqLen_prim hv).safe hv) hs fun l _ => Fills.ite (fun _ => Fills.done _ hs) fun _ => ?_
    have hent : Fills e N
        (.read (setCurD .le) (k.zero, t.zero) fun _ =>
          (fillCore e k {} k.zero).part (fun x => (x, t.zero)) fun x =>
          .read (setCurD .le) (x, t.zero) fun _ =>
          (fillCore e t {} t.zero).wrap fun y => (x, y)) fun p => Shaped N k p.1 ∧ Shaped N t p.2 :=
      ((fillCore_safe hv k false {} k.zero hd.1 (zero_shaped N k) (by simp)).part
        (fun x hx => ⟨hx, zero_shaped N t⟩) fun x hx =>
          ((fillCore_safe hv t false {} t.zero hd.2 (zero_shaped N t) (by simp)).wrap fun y hy => ⟨hx, hy⟩).set).set
    refine (hent.collect l).wrap fun xs hxs => ?_
    simp only [Shaped, Option.getD_some]
    exact foldl_setEntry_all (P := fun p => Shaped N k p.1 ∧ Shaped N t p.2) hxs.2 (by simp)
  | .struct fs, neg, o, old, hd, hs, _ => by
    simp only [decodable] at hd
    simp only [fillCore]
    cases old with
    | struct vs =>
      have hold := hs
      simp only [Shaped] at hs
      simp only [Val.fields, fillStruct]
      have htag : e = .borsh ∧ fs.isEnum = true → ∀ (n : Nat) (ws : List Val), ShapedFields N fs ws →
          Shaped N (.struct fs) (.struct (.uint n :: ws.tail)) := by
        intro h n ws hws
        have hf := h.2
        cases fs with
        | nil => simp [Fields.isEnum] at hf
        | cons m t fs =>
          cases t <;> simp only [Fields.isEnum] at hf <;> try (cases hf; done)
          cases ws with
          | nil => simp [ShapedFields] at hws
          | cons w ws =>
            simp only [ShapedFields] at hws
            simpa [Shaped, ShapedFields] using hws.2
      refine Fills.ite (fun h => ?_) fun h => ?_
      · rw [if_pos h] at hd
        refine Fills.read (readUint8_prim.safe hv) hold fun tag _ =>
          Fills.ite (fun _ => Fills.stop _ _ (htag h _ _ hs)) fun hlt => ?_
        exact (fillNth_safe hv fs (tag + 1) vs hd (by omega) hs).wrap fun ws hws => htag h _ _ hws
      · rw [if_neg h] at hd
        exact (fillFields_safe hv fs [] [] false vs hd hs (by simp)).wrap fun ws hws => by simpa [Shaped] using hws
    | _ => simp [Shaped] at hs
  | .iface, _, _, _, _, hs, _ => by simp only [fillCore]; exact Fills.done _ hs
  | .bool, neg, o, old, hd, hs, hn => by
    have := decCore_safe hv .bool neg o old hd hs hn
    simp only [decCore, fillCore] at this ⊢
    exact Fills.assign this (by simp [Shaped])
  | .uint w b, neg, o, old, hd, hs, hn => by
    have := decCore_safe hv (.uint w b) neg o old hd hs hn
    simp only [decCore, fillCore] at this ⊢
    exact Fills.assign this (by simp [Shaped])
  | .int w b, neg, o, old, hd, hs, hn => by
    have := decCore_safe hv (.int w b) neg o old hd hs hn
    simp only [decCore, fillCore] at this ⊢
    exact Fills.assign this (by simp [Shaped])
  | .borshEnum, neg, o, old, hd, hs, hn => by
    have := decCore_safe hv .borshEnum neg o old hd hs hn
    simp only [decCore, fillCore] at this ⊢
    exact Fills.assign this (by simp [Shaped])
  | .f32, neg, o, old, hd, hs, hn => by
    have := decCore_safe hv .f32 neg o old hd hs hn
    simp only [decCore, fillCore] at this ⊢
    exact Fills.assign this (by simp [Shaped])
  | .f64, neg, o, old, hd, hs, hn => by
    have := decCore_safe hv .f64 neg o old hd hs hn
    simp only [decCore, fillCore] at this ⊢
    exact Fills.assign this (by simp [Shaped])
  | .str, neg, o, old, hd, hs, hn => by
    have := decCore_safe hv .str neg o old hd hs hn
    simp only [decCore, fillCore] at this ⊢
    exact Fills.assign this hs
  | .plainInt, _, _, _, _, hs, _ => by simp only [fillCore]; exact Fills.stop _ _ hs
  | .plainUint, _, _, _, _, hs, _ => by simp only [fillCore]; exact Fills.stop _ _ hs
  | .other, _, _, _, _, hs, _ => by simp only [fillCore]; exact Fills.stop _ _ hs
termination_by structural t => t
theorem fillFields_safe {e : Encoding} {N : Nat} (hv : e.valid = true) : (fs : Fields) → (sm : List (Bytes × Int)) →
    (negs : List Bytes) → (seen : Bool) → (vs : List Val) →
    decodableFields e fs negs seen = true → ShapedFields N fs vs → (∀ p ∈ sm, p.2 < 0 → p.1 ∈ negs) →
    Fills e N (fillFields e fs sm seen vs) (ShapedFields N fs)
  | .nil, _, _, _, _, _, _, _ => by simp only [fillFields]; exact Fills.done _ (by simp [ShapedFields])
  | .cons m t fs, sm, negs, seen, [], hd, hs, hsm => by simp [ShapedFields] at hs
  | .cons m t fs, sm, negs, seen, v :: vs, hd, hs, hsm => by
    have hold := hs
    simp only [ShapedFields] at hs
    simp only [decodableFields] at hd
    simp only [fillFields]
    refine Fills.ite (fun hsk => ?_) fun hsk => ?_
    · rw [if_pos hsk] at hd
      exact (fillFields_safe hv fs sm negs seen vs hd hs.2 hsm).wrap fun ws hws => by simpa [ShapedFields] using ⟨hs.1, hws⟩
    rw [if_neg hsk] at hd
    simp only [Bool.and_eq_true] at hd
    obtain ⟨⟨hse, hf⟩, hrest⟩ := hd
    rw [if_neg (by
      intro h
      rw [Bool.and_eq_true, Bool.not_eq_true'] at h
      rw [h.1, h.2] at hse
      simp at hse)]
    have hmono : ∀ p ∈ sm, p.2 < 0 → p.1 ∈ (if m.tag.sizeOf ≠ [] ∧ isSigned t.kind then m.tag.sizeOf :: negs else negs) := by
      intro p hp hl
      split
      · exact List.mem_cons_of_mem _ (hsm p hp hl)
      · exact hsm p hp hl
    refine Fills.read (extensionEnds_safe m) hold fun atEnd _ => Fills.ite (fun _ => ?_) fun hgo => ?_
    · exact (fillFields_safe hv fs sm _ _ vs hrest hs.2 hmono).wrap fun ws hws => by simpa [ShapedFields] using ⟨hs.1, hws⟩
    have hex : m.exported = true := by
      cases he : m.exported
      · rw [he] at hgo; simp at hgo
      · rfl
    have hgen : ∀ hf2 : ((!m.tag.option || t.asLib.isNone) &&
         (!(e == .borsh && m.tag.coption) || (t.asLib.isNone && (!m.tag.option || !t.baseLib))) &&
         (m.tag.sizeOf == [] || isInteger t.kind) &&
         decodable e t (negs.contains m.name)) = true, Fills e N
          ((fillField e t (fieldOpt m sm) v (fillCore e t (fieldOpt m sm) v)).part (· :: vs) fun x =>
            .read (recordSize m t x sm) (x :: vs) fun sm =>
            (fillFields e fs sm (seen || m.tag.binExt) vs).wrap (x :: ·)) (ShapedFields N (.cons m t fs)) := by
      intro hf2
      simp only [Bool.and_eq_true] at hf2
      obtain ⟨⟨⟨h1, h2⟩, h3⟩, h4⟩ := hf2
      have hcore := fillCore_safe hv t (negs.contains m.name) (fieldOpt m sm) v h4 hs.1
        (fun s hls hs0 => lookup_neg hsm hls hs0)
      refine (fillField_safe hv t (fieldOpt m sm) v _ hs.1 ?_ ?_ hcore).part
        (fun x hx => by simpa [ShapedFields] using ⟨hx, hs.2⟩) fun x hx => ?_
      · intro ho
        rw [show m.tag.option = true from ho] at h1
        simpa using h1
      · intro he ho
        rw [show m.tag.coption = true from ho, he] at h2
        simp only [beq_self_eq_true, Bool.and_self, Bool.not_true, Bool.false_or, Bool.and_eq_true] at h2
        refine ⟨by simpa using h2.1, fun hop => ?_⟩
        have := h2.2
        rw [show m.tag.option = true from hop] at this
        simpa using this
      · refine Fills.read (recordSize_safe hx (by simpa using h3) hsm) (by simpa [ShapedFields] using ⟨hx, hs.2⟩)
          fun sm' hsm' => ?_
        exact (fillFields_safe hv fs sm' _ _ vs hrest hs.2 hsm').wrap fun ws hws => by simpa [ShapedFields] using ⟨hx, hws⟩
    cases hl : (if e = .borsh then t.directLib else none) with
    | some p =>
      obtain ⟨l, isPtr⟩ := p
      have hdl : t.directLib = some (l, isPtr) := by
        split at hl
        · exact hl
        · cases hl
      refine Fills.read (unmarshalLib_safe hv l l.zero (lib_zero_shaped N l)) hold fun x hx => ?_
      exact (fillFields_safe hv fs sm _ _ vs hrest hs.2 hmono).wrap fun ws hws => by
        simpa [ShapedFields] using ⟨directLib_shaped hdl hx, hws⟩
    | none =>
      refine hgen ?_
      rw [hex] at hf
      simp only [Bool.not_true, Bool.false_or, Bool.or_eq_true] at hf
      rcases hf with hf | hf
      · simp only [Bool.and_eq_true, beq_iff_eq] at hf
        rw [if_pos hf.1] at hl
        rw [hl] at hf
        simp at hf
      · exact hf
termination_by structural fs => fs
theorem fillNth_safe {e : Encoding} {N : Nat} (hv : e.valid = true) : (fs : Fields) → (i : Nat) → (vs : List Val) →
    decodableAll e fs = true → i < fs.length → ShapedFields N fs vs → Fills e N (fillNth e fs i vs) (ShapedFields N fs)
  | .nil, i, vs, _, hi, _ => by simp [Fields.length] at hi
  | .cons m t fs, i, [], _, _, hs => by simp [ShapedFields] at hs
  | .cons m t fs, 0, v :: vs, hd, _, hs => by
    simp only [ShapedFields] at hs
    simp only [decodableAll, Bool.and_eq_true] at hd
    simp only [fillNth]
    exact ((fillCore_safe hv t false {} v hd.1 hs.1 (by simp)).wrap fun x hx => by
      simpa [ShapedFields] using ⟨hx, hs.2⟩).set
  | .cons m t fs, i + 1, v :: vs, hd, hi, hs => by
    simp only [ShapedFields] at hs
    simp only [decodableAll, Bool.and_eq_true] at hd
    simp only [fillNth]
    exact (fillNth_safe hv fs i vs hd.2 (by simpa [Fields.length] using hi) hs.2).wrap fun ws hws => by
      simpa [ShapedFields] using ⟨hs.1, hws⟩
termination_by structural fs => fs
end

/-- Decoding any bytes into a decodable type leaves a value of the type in the destination. -/
theorem decodeInto_safe {e : Encoding} (hv : e.valid = true) (t : Ty) (old : Val) (ht : decodable e t false = true) (d : Dec)
    (ho : d.Ok) (he : d.enc = e) {N : Nat} (hN : d.rest.length ≤ N) (hs : Shaped N t old) :
    Shaped N t (decodeInto t old d).2.1 := by
  obtain ⟨res, a, k, c, hr, -, hk, hp, hq⟩ :=
    fillCore_safe (N := N) hv t false {} old ht hs (by simp) { d with cur := some .le } ho he (by simp) hN
  have hne : ¬ d.enc = .other := by rw [he]; intro h; rw [h] at hv; cases hv
  unfold decodeInto
  simp only [Fill.read, M.get_apply, if_neg hne, setCurD, M.modify_apply]
  subst he
  rw [hr]
  exact hq

end Verif
