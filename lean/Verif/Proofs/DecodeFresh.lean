import Verif.Spec.Kept
import Verif.Proofs.DecodeSafe
/-!
Which earlier contents of the destination matter.
-/
set_option linter.unusedSimpArgs false
namespace Verif
open Spec

/-- The two reads do the same, started inside the buffer. -/
def Agree {α : Type} (e : Encoding) (N : Nat) (r s : DM α) : Prop :=
  ∀ d : Dec, d.Ok → d.enc = e → d.cur ≠ none → d.rest.length ≤ N → r d = s d

section
variable {α β : Type} {e : Encoding} {N : Nat}

theorem Agree.refl (r : DM α) : Agree e N r r := fun _ _ _ _ _ => rfl

theorem Agree.bind {r s : DM α} {f g : α → DM β} {P : α → Prop} (hs : Safe e N r P) (h : Agree e N r s)
    (hf : ∀ a, P a → Agree e N (f a) (g a)) : Agree e N (r >>= f) (s >>= g) := by
  intro d ho he hc hN
  obtain ⟨res, k, c, hr, hc1, hk, hp, hq⟩ := hs d ho he hc hN
  have hr2 := h d ho he hc hN
  rw [hr] at hr2
  cases res with
  | panic => exact absurd rfl hp
  | err x => rw [M.bind_err hr, M.bind_err hr2.symm]
  | ok a =>
    have hrest : (d.to k c).rest.length = d.rest.length - k := by
      rw [Dec.to_rest, Dec.adv_rest ho, List.length_drop]
    rw [M.bind_ok hr, M.bind_ok hr2.symm]
    exact hf a (hq a rfl) (d.to k c) (Dec.to_ok (Dec.adv_ok ho hk)) he hc1 (by rw [hrest]; omega)

theorem Agree.map {r s : DM α} {f : α → β} {P : α → Prop} (hs : Safe e N r P) (h : Agree e N r s) :
    Agree e N (r >>= fun x => Pure.pure (f x)) (s >>= fun x => Pure.pure (f x)) :=
  Agree.bind hs h fun _ _ => Agree.refl _

theorem Agree.ite {c : Prop} [Decidable c] {r s r' s' : DM α} (h1 : c → Agree e N r r') (h2 : ¬ c → Agree e N s s') :
    Agree e N (if c then r else s) (if c then r' else s') := by
  by_cases h : c
  · rw [if_pos h, if_pos h]; exact h1 h
  · rw [if_neg h, if_neg h]; exact h2 h

theorem Agree.set {o : Order} {r s : DM α} (h : Agree e N r s) :
    Agree e N (setCurD o >>= fun _ => r) (setCurD o >>= fun _ => s) := by
  intro d ho he _ hN
  simp only [setCurD, M.bind_apply, M.modify_apply]
  exact h { d with cur := some o } ho he (by simp) hN

theorem Agree.traverse {f : α → DM β} {Q : β → Prop} : ∀ (xs ys : List α),
    (∀ x ∈ xs, Safe e N (f x) Q) → All2 (fun x y => Agree e N (f x) (f y)) xs ys →
    Agree e N (traverseM f xs) (traverseM f ys)
  | [], [], _, _ => Agree.refl _
  | [], _ :: _, _, h => by simp [All2] at h
  | _ :: _, [], _, h => by simp [All2] at h
  | x :: xs, y :: ys, hs, h => by
    simp only [All2] at h
    unfold traverseM
    refine Agree.bind (hs x (by simp)) h.1 fun a _ => ?_
    exact Agree.map (Safe.traverse xs fun z hz => hs z (by simp [hz])) (Agree.traverse xs ys (fun z hz => hs z (by simp [hz])) h.2)
end

theorem unmarshalLib_agree {e : Encoding} {N : Nat} (l : Lib) (x y : Val) (h : l = .emptyVariant → x = y) :
    Agree e N (unmarshalLib l x) (unmarshalLib l y) := by
  have hw : ∀ (r : Order → DM (Nat × Nat)), Agree e N
      (M.get >>= fun d : Dec => r (order128 d.cur x.endianness) >>= fun r => Pure.pure (Val.u128 r.1 r.2 none))
      (M.get >>= fun d : Dec => r (order128 d.cur y.endianness) >>= fun r => Pure.pure (Val.u128 r.1 r.2 none)) := by
    intro r d _ _ hc _
    rw [M.bind_apply, M.get_apply, M.bind_apply, M.get_apply]
    simp only []
    cases hd : d.cur with
    | none => exact absurd hd hc
    | some o => rfl
  cases l <;> simp only [unmarshalLib] <;> first | exact Agree.refl _ | exact hw _ | skip
  rw [h rfl]
  exact Agree.refl _

theorem absentVal_kept (t : Ty) (x y : Val) (h : isPtrPtr t = true → x = y) : absentVal t x = absentVal t y := by
  cases t with
  | ptr t =>
    cases t with
    | ptr t => rw [h rfl]
    | _ => rfl
  | _ => rfl

theorem decField_agree {e : Encoding} {N : Nat} (hv : e.valid = true) (t : Ty) (o : Opt) (x y : Val) (r s : DM Val)
    (hpp : o.optional = true ∨ o.coptional = true → isPtrPtr t = true → x = y) (h : Agree e N r s) :
    Agree e N (decField e t o x r) (decField e t o y s) := by
  have hco := readCOption_prim.safe (N := N) hv
  unfold decField
  refine Agree.set ?_
  refine Agree.ite (fun ho => Agree.ite (fun _ => Agree.refl _) fun _ => ?_) fun _ => Agree.ite (fun ho => ?_) fun _ => h
  · refine Agree.bind ((readFlag_prim hv).safe hv) (Agree.refl _) fun b _ => Agree.ite (fun _ => ?_) fun _ => ?_
    · refine Agree.ite (fun _ => Agree.ite (fun _ => Agree.refl _) fun _ => ?_) fun _ => h
      exact Agree.bind hco (Agree.refl _) fun b _ => Agree.ite (fun _ => h) fun _ => Agree.refl _
    · rw [absentVal_kept t x y (hpp (.inl ho))]; exact Agree.refl _
  · refine Agree.ite (fun _ => Agree.refl _) fun _ => ?_
    refine Agree.bind hco (Agree.refl _) fun b _ => Agree.ite (fun _ => h) fun _ => ?_
    rw [absentVal_kept t x y (hpp (.inr ho.2))]; exact Agree.refl _

theorem all2_imp {α β : Type} {P Q : α → β → Prop} : ∀ {xs : List α} {ys : List β},
    All2 P xs ys → (∀ x ∈ xs, ∀ y, P x y → Q x y) → All2 Q xs ys
  | [], [], _, _ => trivial
  | [], _ :: _, h, _ => by simp [All2] at h
  | _ :: _, [], h, _ => by simp [All2] at h
  | x :: xs, y :: ys, h, hi => by
    simp only [All2] at h ⊢
    exact ⟨hi x (by simp) y h.1, all2_imp h.2 fun z hz => hi z (by simp [hz])⟩

mutual
theorem decCore_agree {e : Encoding} {N : Nat} (hv : e.valid = true) : (t : Ty) → (neg : Bool) → (o : Opt) → (x y : Val) →
    decodable e t neg = true → Shaped N t x → (∀ s, o.sizeOf = some s → s < 0 → neg = true) → SameKept e t x y →
    Agree e N (decCore e t o x) (decCore e t o y)
  | .lib l, neg, o, x, y, _, _, _, hk => by
    simp only [decCore]
    refine unmarshalLib_agree l x y ?_
    rintro rfl
    simpa [SameKept] using hk
  | .ptr t, neg, o, x, y, hd, hs, hn, hk => by
    have hd' : decodable e t neg = true := by simpa [decodable] using hd
    cases x <;> try (simp [Shaped] at hs; done)
    cases y <;> try (simp [SameKept] at hk; done)
    rename_i p q
    simp only [SameKept] at hk
    simp only [decCore]
    have e1 : (Val.ptr p).deref t = p.getD t.zero := by cases p <;> rfl
    have e2 : (Val.ptr q).deref t = q.getD t.zero := by cases q <;> rfl
    rw [e1, e2]
    have hs' : Shaped N t (p.getD t.zero) := by
      cases p with
      | none => exact zero_shaped N t
      | some x => simpa [Shaped] using hs
    exact Agree.map (decCore_safe hv t neg o _ hd' hs' hn) (decCore_agree hv t neg o _ _ hd' hs' hn hk)
  | .slice t, neg, o, x, y, hd, hs, hn, hk => by
    simp only [SameKept] at hk
    simp only [decCore]
    have hcont : ∀ l : Int, ∀ (rest : DM Val), Agree e N (if e = .borsh ∧ l = 0 then Pure.pure x else rest)
        (if e = .borsh ∧ l = 0 then Pure.pure y else rest) := by
      intro l rest
      refine Agree.ite (fun h => ?_) fun _ => Agree.refl _
      rw [hk h.1]; exact Agree.refl _
    cases o.sizeOf with
    | some s => exact Agree.bind (Safe.pure (Q := fun _ => True) s trivial) (Agree.refl _) fun l _ => hcont l _
    | none => exact Agree.bind ((readSeqLen_prim hv).safe hv) (Agree.refl _) fun n _ => hcont n _
  | .array n t, neg, o, x, y, hd, hs, _, hk => by
    simp only [decodable] at hd
    cases x <;> try (simp [Shaped] at hs; done)
    cases y <;> try (simp [SameKept] at hk; done)
    rename_i xs ys
    simp only [SameKept] at hk
    simp only [Shaped] at hs
    simp only [decCore, Val.elems]
    cases t.uintKind with
    | some w => exact Agree.refl _
    | none =>
      have hsafe : ∀ x ∈ xs, Safe e N (do setCurD .le; decCore e t {} x) (Shaped N t) := fun x hx =>
        (decCore_safe hv t false {} x hd (hs.2 x hx) (by simp)).set
      exact Agree.map (Safe.traverse xs hsafe) (Agree.traverse xs ys hsafe (all2_imp hk fun x hx y hxy =>
        (decCore_agree hv t false {} x y hd (hs.2 x hx) (by simp) hxy).set))
  | .map k t, neg, o, x, y, _, _, _, hk => by
    simp only [SameKept] at hk
    rw [hk]; exact Agree.refl _
  | .struct fs, neg, o, x, y, hd, hs, _, hk => by
    simp only [decodable] at hd
    cases x <;> try (simp [Shaped] at hs; done)
    cases y <;> try (simp [SameKept] at hk; done)
    rename_i xs ys
    simp only [SameKept] at hk
    simp only [Shaped] at hs
    simp only [decCore, Val.fields, decStruct]
    refine Agree.ite (fun h => ?_) fun h => ?_
    · rw [if_pos h] at hk
      rw [hk]; exact Agree.refl _
    · rw [if_neg h] at hk hd
      exact Agree.map (decFields_safe hv fs [] [] false xs hd hs (by simp)) (decFields_agree hv fs [] [] false xs ys hd hs (by simp) hk)
  | .iface, _, _, x, y, _, _, _, hk => by
    simp only [SameKept] at hk
    rw [hk]; exact Agree.refl _
  | .bool, _, _, _, _, _, _, _, _ => by simp only [decCore]; exact Agree.refl _
  | .uint _ _, _, _, _, _, _, _, _, _ => by simp only [decCore]; exact Agree.refl _
  | .int _ _, _, _, _, _, _, _, _, _ => by simp only [decCore]; exact Agree.refl _
  | .borshEnum, _, _, _, _, _, _, _, _ => by simp only [decCore]; exact Agree.refl _
  | .f32, _, _, _, _, _, _, _, _ => by simp only [decCore]; exact Agree.refl _
  | .f64, _, _, _, _, _, _, _, _ => by simp only [decCore]; exact Agree.refl _
  | .str, _, _, _, _, _, _, _, _ => by simp only [decCore]; exact Agree.refl _
  | .plainInt, _, _, _, _, _, _, _, _ => by simp only [decCore]; exact Agree.refl _
  | .plainUint, _, _, _, _, _, _, _, _ => by simp only [decCore]; exact Agree.refl _
  | .other, _, _, _, _, _, _, _, _ => by simp only [decCore]; exact Agree.refl _
termination_by structural t => t
theorem decFields_agree {e : Encoding} {N : Nat} (hv : e.valid = true) : (fs : Fields) → (sm : List (Bytes × Int)) →
    (negs : List Bytes) → (seen : Bool) → (xs ys : List Val) →
    decodableFields e fs negs seen = true → ShapedFields N fs xs → (∀ p ∈ sm, p.2 < 0 → p.1 ∈ negs) →
    SameKeptFields e fs xs ys → Agree e N (decFields e fs sm seen xs) (decFields e fs sm seen ys)
  | .nil, _, _, _, _, _, _, _, _, _ => by simp only [decFields]; exact Agree.refl _
  | .cons m t fs, _, _, _, [], _, _, hs, _, _ => by simp [ShapedFields] at hs
  | .cons m t fs, _, _, _, _ :: _, [], _, _, _, hk => by simp [SameKeptFields] at hk
  | .cons m t fs, sm, negs, seen, x :: xs, y :: ys, hd, hs, hsm, hk => by
    simp only [ShapedFields] at hs
    simp only [decodableFields] at hd
    simp only [SameKeptFields] at hk
    simp only [decFields]
    obtain ⟨hk1, hk2⟩ := hk
    by_cases hsk : m.tag.skip = true
    · rw [if_pos hsk] at hd
      rw [if_pos (.inl hsk)] at hk1
      rw [if_pos hsk, if_pos hsk, hk1]
      exact Agree.map (decFields_safe hv fs sm negs seen xs hd hs.2 hsm) (decFields_agree hv fs sm negs seen xs ys hd hs.2 hsm hk2)
    rw [if_neg hsk] at hd
    rw [if_neg hsk, if_neg hsk]
    simp only [Bool.and_eq_true] at hd
    obtain ⟨⟨hse, hf⟩, hrest⟩ := hd
    have hns : ¬ (!m.tag.binExt && seen) = true := by
      intro h
      rw [Bool.and_eq_true, Bool.not_eq_true'] at h
      rw [h.1, h.2] at hse
      simp at hse
    rw [if_neg hns, if_neg hns]
    have hmono : ∀ p ∈ sm, p.2 < 0 → p.1 ∈ (if m.tag.sizeOf ≠ [] ∧ isSigned t.kind then m.tag.sizeOf :: negs else negs) := by
      intro p hp hl
      split
      · exact List.mem_cons_of_mem _ (hsm p hp hl)
      · exact hsm p hp hl
    have hrsafe := fun sm' hsm' => decFields_safe (N := N) hv fs sm' _ _ xs hrest hs.2 hsm'
    have hragree := fun sm' hsm' => decFields_agree (N := N) hv fs sm' _ _ xs ys hrest hs.2 hsm' hk2
    refine Agree.bind (extensionEnds_safe m) (Agree.refl _) fun atEnd hat => ?_
    by_cases hgo : (atEnd || !m.exported) = true
    · rw [if_pos hgo, if_pos hgo]
      by_cases hb : m.tag.binExt = true ∨ ¬ m.exported = true
      · rw [if_pos (.inr hb)] at hk1
        rw [hk1]
        exact Agree.map (hrsafe sm hmono) (hragree sm hmono)
      · exfalso
        rw [Bool.or_eq_true] at hgo
        rcases hgo with h | h
        · exact hb (.inl (hat h))
        · exact hb (.inr (by simpa using h))
    rw [if_neg hgo, if_neg hgo]
    have hex : m.exported = true := by
      cases he : m.exported
      · rw [he] at hgo; simp at hgo
      · rfl
    cases hl : (if e = .borsh then t.directLib else none) with
    | some p =>
      obtain ⟨l, isPtr⟩ := p
      exact Agree.bind (unmarshalLib_safe hv l l.zero (lib_zero_shaped N l)) (Agree.refl _) fun z _ =>
        Agree.map (hrsafe sm hmono) (hragree sm hmono)
    | none =>
      have hnl : ¬ (e = .borsh ∧ t.directLib.isSome = true) := by
        intro h
        rw [if_pos h.1] at hl
        rw [hl] at h
        simp at h
      have hf2 : ((!m.tag.option || t.asLib.isNone) &&
         (!(e == .borsh && m.tag.coption) || (t.asLib.isNone && (!m.tag.option || !t.baseLib))) &&
         (m.tag.sizeOf == [] || isInteger t.kind) &&
         decodable e t (negs.contains m.name)) = true := by
        rw [hex] at hf
        simp only [Bool.not_true, Bool.false_or, Bool.or_eq_true] at hf
        rcases hf with hf | hf
        · simp only [Bool.and_eq_true, beq_iff_eq] at hf
          exact absurd hf hnl
        · exact hf
      simp only [Bool.and_eq_true] at hf2
      obtain ⟨⟨⟨h1, h2⟩, h3⟩, h4⟩ := hf2
      have hneg := fun s hls hs0 => lookup_neg (s := s) (name := m.name) hsm hls hs0
      have hcore := decCore_safe hv t (negs.contains m.name) (fieldOpt m sm) x h4 hs.1 hneg
      have hfield : Safe e N (decField e t (fieldOpt m sm) x (decCore e t (fieldOpt m sm) x)) (Shaped N t) := by
        refine decField_safe hv t (fieldOpt m sm) x _ hs.1 ?_ ?_ hcore
        · intro ho
          rw [show m.tag.option = true from ho] at h1
          simpa using h1
        · intro he ho
          rw [show m.tag.coption = true from ho, he] at h2
          simp only [beq_self_eq_true, Bool.and_self, Bool.not_true, Bool.false_or, Bool.and_eq_true] at h2
          refine ⟨by simpa using h2.1, fun hop => ?_⟩
          have := h2.2
          rw [show m.tag.option = true from hop] at this
          simpa using this
      have hag : Agree e N (decField e t (fieldOpt m sm) x (decCore e t (fieldOpt m sm) x))
          (decField e t (fieldOpt m sm) y (decCore e t (fieldOpt m sm) y)) := by
        split at hk1
        · rw [hk1]; exact Agree.refl _
        · rcases hk1 with hk1 | hk1
          · exact absurd hk1 hnl
          · exact decField_agree hv t _ x y _ _ hk1.2 (decCore_agree hv t _ _ x y h4 hs.1 hneg hk1.1)
      refine Agree.bind hfield hag fun z hz => ?_
      refine Agree.bind (recordSize_safe hz (by simpa using h3) hsm) (Agree.refl _) fun sm' hsm' => ?_
      exact Agree.map (hrsafe sm' hsm') (hragree sm' hsm')
termination_by structural fs => fs
end

theorem decode_agree {e : Encoding} (hv : e.valid = true) (t : Ty) (x y : Val) (ht : decodable e t false = true) (d : Dec)
    (ho : d.Ok) (he : d.enc = e) {N : Nat} (hN : d.rest.length ≤ N) (hs : Shaped N t x) (hk : SameKept e t x y) :
    decode t x d = decode t y d := by
  have hne : ¬ d.enc = .other := by rw [he]; intro h; rw [h] at hv; cases hv
  unfold decode
  rw [M.bind_apply, M.get_apply, M.bind_apply, M.get_apply]
  simp only []
  rw [if_neg hne, if_neg hne, he]
  simp only [setCurD, M.bind_apply, M.modify_apply]
  exact decCore_agree hv t false {} x y ht hs (by simp) hk { d with cur := some .le } ho he (by simp) hN

/-! ### types without such places -/

theorem all2_of {P : Val → Val → Prop} : ∀ {xs ys : List Val}, xs.length = ys.length → (∀ x ∈ xs, ∀ y ∈ ys, P x y) → All2 P xs ys
  | [], [], _, _ => trivial
  | [], _ :: _, h, _ => by simp at h
  | _ :: _, [], h, _ => by simp at h
  | x :: xs, y :: ys, h, hi => by
    simp only [All2]
    exact ⟨hi x (by simp) y (by simp), all2_of (by simpa using h) fun a ha b hb => hi a (by simp [ha]) b (by simp [hb])⟩

mutual
theorem sameKept_overwrites {e : Encoding} {N : Nat} : (t : Ty) → overwrites e t = true → (x y : Val) → Shaped N t x →
    Shaped N t y → SameKept e t x y
  | .lib l, _, x, y, hx, hy => by
    simp only [Shaped] at hx hy
    cases l <;> try trivial
    simp only [SameKept]
    cases x <;> (try (simp [LibShaped] at hx; done)) <;> cases y <;> (try (simp [LibShaped] at hy; done))
    rename_i xs ys
    cases xs <;> (try (simp [LibShaped] at hx; done)) <;> cases ys <;> (try (simp [LibShaped] at hy; done))
    rfl
  | .ptr t, h, x, y, hx, hy => by
    cases x <;> (try (simp [Shaped] at hx; done)) <;> cases y <;> (try (simp [Shaped] at hy; done))
    rename_i p q
    simp only [SameKept]
    refine sameKept_overwrites (N := N) t (by simpa [overwrites] using h) _ _ ?_ ?_
    · cases p with
      | none => exact zero_shaped N t
      | some x => simpa [Shaped] using hx
    · cases q with
      | none => exact zero_shaped N t
      | some x => simpa [Shaped] using hy
  | .slice t, h, x, y, _, _ => by
    simp only [SameKept]
    intro he
    simp [overwrites, he] at h
  | .array n t, h, x, y, hx, hy => by
    cases x <;> (try (simp [Shaped] at hx; done)) <;> cases y <;> (try (simp [Shaped] at hy; done))
    simp only [Shaped] at hx hy
    simp only [SameKept]
    exact all2_of (by rw [hx.1, hy.1]) fun a ha b hb =>
      sameKept_overwrites t (by simpa [overwrites] using h) a b (hx.2 a ha) (hy.2 b hb)
  | .map k t, h, _, _, _, _ => by simp [overwrites] at h
  | .struct fs, h, x, y, hx, hy => by
    simp only [overwrites, Bool.and_eq_true, Bool.not_eq_true', Bool.and_eq_false_iff] at h
    cases x <;> (try (simp [Shaped] at hx; done)) <;> cases y <;> (try (simp [Shaped] at hy; done))
    simp only [Shaped] at hx hy
    simp only [SameKept]
    rw [if_neg (by
      rintro ⟨rfl, h2⟩
      rcases h.1 with h1 | h1
      · cases h1
      · rw [h1] at h2; cases h2)]
    exact sameKept_fields fs h.2 _ _ hx hy
  | .iface, h, _, _, _, _ => by simp [overwrites] at h
  | .bool, _, _, _, _, _ => by simp only [SameKept]
  | .uint _ _, _, _, _, _, _ => by simp only [SameKept]
  | .int _ _, _, _, _, _, _ => by simp only [SameKept]
  | .borshEnum, _, _, _, _, _ => by simp only [SameKept]
  | .f32, _, _, _, _, _ => by simp only [SameKept]
  | .f64, _, _, _, _, _ => by simp only [SameKept]
  | .str, _, _, _, _, _ => by simp only [SameKept]
  | .plainInt, _, _, _, _, _ => by simp only [SameKept]
  | .plainUint, _, _, _, _, _ => by simp only [SameKept]
  | .other, _, _, _, _, _ => by simp only [SameKept]
termination_by structural t => t
theorem sameKept_fields {e : Encoding} {N : Nat} : (fs : Fields) → overwritesFields e fs = true → (xs ys : List Val) →
    ShapedFields N fs xs → ShapedFields N fs ys → SameKeptFields e fs xs ys
  | .nil, _, _, _, _, _ => by simp only [SameKeptFields]
  | .cons m t fs, _, [], _, hx, _ => by simp [ShapedFields] at hx
  | .cons m t fs, _, _ :: _, [], _, hy => by simp [ShapedFields] at hy
  | .cons m t fs, h, x :: xs, y :: ys, hx, hy => by
    simp only [ShapedFields] at hx hy
    simp only [overwritesFields, Bool.and_eq_true, Bool.not_eq_true', Bool.or_eq_true, beq_iff_eq] at h
    obtain ⟨⟨⟨⟨h1, h2⟩, h3⟩, h4⟩, h5⟩ := h
    simp only [SameKeptFields]
    rw [if_neg (by simp [h1, h2, h3])]
    refine ⟨?_, sameKept_fields fs h5 xs ys hx.2 hy.2⟩
    rcases h4 with h4 | h4
    · exact .inl h4
    · refine .inr ⟨sameKept_overwrites t h4.1 x y hx.1 hy.1, fun ho hp => ?_⟩
      rw [hp] at h4
      rcases ho with ho | ho <;> simp [ho] at h4
termination_by structural fs => fs
end

end Verif
