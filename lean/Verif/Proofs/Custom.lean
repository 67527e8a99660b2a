import Verif.Spec.Custom
import Verif.Proofs.DecodeWire
/-!
The encoder writes what `Spec.Written` says and the decoder reads what `Spec.ReadAs` says, whatever methods the types have.
-/
set_option linter.unusedSimpArgs false
namespace Verif
open Spec

theorem Spec.MethodWrites.ew {e : Encoding} {o : Order} {w bs} (h : MethodWrites e o w bs) : EWat e o w bs := h

theorem EWat.emits {e : Encoding} {o : Order} {w bs} (h : EWat e o w bs) : MethodWrites e o w bs := h

theorem Spec.MethodReads.rd {e : Encoding} {o : Order} {g : DM Val} {bs x} (h : MethodReads e o g bs x) : RDat e o g bs x :=
  fun d tail h1 h2 h3 _ h5 => h d tail h1 h2.1 h2.2 h3 h5

theorem RDat.takes {e : Encoding} {o : Order} {g : DM Val} {bs x} (ho : e = .borsh → o = .le) (h : RDat e o g bs x) :
    MethodReads e o g bs x :=
  fun d tail h1 h2 h2' h3 h5 => h d tail h1 ⟨h2, h2'⟩ h3 (fun hb => by rw [h5, ho hb]) h5

theorem EW.index_concat {e : Encoding} {α : Type} {f : α → EM Unit} {P : α → Bytes → Prop} : (xs : List α) → (bs : Bytes) →
    (∀ x ∈ xs, ∀ b, P x b → EW e (f x) b) → Concat P xs bs → EW e (forIndexM f xs.length xs) bs
  | [], bs, _, h => by
    simp only [Concat] at h
    subst h; exact EW.pure
  | x :: xs, bs, hp, h => by
    simp only [Concat] at h
    obtain ⟨b, rest, rfl, h1, h2⟩ := h
    simp only [List.length_cons, forIndexM]
    exact (hp x (by simp) b h1).seq (EW.index_concat xs rest (fun y hy => hp y (by simp [hy])) h2)

theorem EW.each_concat {e : Encoding} {α : Type} {f : α → EM Unit} {P : α → Bytes → Prop} : (xs : List α) → (bs : Bytes) →
    (∀ x ∈ xs, ∀ b, P x b → EW e (f x) b) → Concat P xs bs → EW e (forEachM f xs) bs
  | [], bs, _, h => by
    simp only [Concat] at h
    subst h; exact EW.pure
  | x :: xs, bs, hp, h => by
    simp only [Concat] at h
    obtain ⟨b, rest, rfl, h1, h2⟩ := h
    simp only [forEachM]
    exact (hp x (by simp) b h1).seq (EW.each_concat xs rest (fun y hy => hp y (by simp [hy])) h2)

theorem elems_w {e : Encoding} (c : CTy) (xs : List Val) (body : Bytes) (l : Int) (hl : l = xs.length)
    (ih : ∀ x b, Written e c .le none x b → EWat e .le (encC e c {} x) b)
    (h : Elems c (fun x b => Written e c .le none x b) xs body) :
    EW e (match c.erase.uintKind with
      | some w => writeUints l w xs
      | none => forIndexM (fun x => do setCurE .le; encC e c {} x) l.toNat xs) body := by
  unfold Elems at h
  cases hu : c.erase.uintKind with
  | some w =>
    simp only [hu] at h ⊢
    obtain ⟨h1, rfl⟩ := h
    exact writeUints_w w _ l hl h1
  | none =>
    simp only [hu] at h ⊢
    rw [hl, Int.toNat_natCast]
    exact EW.index_concat xs body (fun x _ b hb => EWat.set (ih x b hb)) h

/-- What `Written` says about a struct. -/
def WrittenStruct (e : Encoding) (fs : CFields) (vs : List Val) (bs : Bytes) : Prop :=
  if e = .borsh ∧ fs.isEnum then
    match vs with
    | .uint n :: _ => n < 256 ∧ n + 1 < fs.length ∧ ∃ b, bs = fixed .le 1 n ++ b ∧ WrittenNth e fs (n + 1) vs b
    | _ => False
  else WrittenFields e fs [] vs bs

theorem encStructC_w {e : Encoding} {fs : CFields} {vs : List Val} {bs : Bytes} {fields : EM Unit} {nth : Nat → EM Unit}
    (h : WrittenStruct e fs vs bs)
    (h1 : WrittenFields e fs [] vs bs → EW e fields bs)
    (h2 : ∀ i b, e = .borsh → WrittenNth e fs i vs b → EW e (nth i) b) :
    EW e (encStructC e fs vs fields nth) bs := by
  unfold WrittenStruct at h
  unfold encStructC
  by_cases hc : e = .borsh ∧ fs.isEnum = true
  · rw [if_pos hc] at h ⊢
    split at h
    · obtain ⟨hn, hl, b, rfl, hb⟩ := h
      simp only []
      rw [if_neg (by omega), fixed_one]
      exact (writeByte_writes e _).ew.seq (h2 _ _ hc.1 hb)
    · exact h.elim
  · rw [if_neg hc] at h ⊢
    exact h1 h

mutual
theorem encC_w {e : Encoding} (hv : e.valid = true) : (c : CTy) → (opt : Opt) → (v : Val) → (bs : Bytes) →
    Written e c opt.order opt.sizeOf v bs → EWat e opt.order (encC e c opt v) bs
  | .plain t, opt, v, bs, h => by
    simp only [Written] at h
    obtain ⟨h1, rfl⟩ := h
    simp only [encC]
    exact encCore_w hv t opt v h1
  | .user c m u, opt, v, bs, h => by
    cases m with
    | value f =>
      simp only [Written] at h
      simp only [encC]
      exact h.ew
    | none =>
      simp only [Written] at h
      simp only [encC]
      exact encC_w hv c opt v bs h
    | pointer f =>
      simp only [Written] at h
      simp only [encC]
      exact encC_w hv c opt v bs h
  | .ptr c, opt, v, bs, h => by
    cases v <;> simp only [Written] at h
    rename_i p
    simp only [encC]
    cases hm : c.method with
    | value f =>
      cases p with
      | some x => simp only [hm] at h ⊢; exact h.ew
      | none =>
        simp only [hm] at h ⊢
        rw [if_pos h.1, h.2]
        exact EW.pure.at _
    | pointer f =>
      cases p with
      | some x => simp only [hm] at h ⊢; exact h.ew
      | none =>
        simp only [hm] at h ⊢
        by_cases hb : e = .borsh
        · rw [if_pos hb] at h ⊢
          rw [h]; exact EW.pure.at _
        · rw [if_neg hb] at h ⊢
          exact h.ew
    | none =>
      by_cases hb : e = .borsh
      · simp only [hb, if_true] at h ⊢
        subst hb
        refine (EWat.set ?_).at _
        cases p with
        | none =>
          simp only [hm] at h
          exact encC_w hv c {} c.erase.zero bs h
        | some x =>
          simp only [hm] at h
          exact encC_w hv c {} x bs h
      · simp only [hb, if_false] at h ⊢
        cases p with
        | none =>
          simp only [hm] at h
          rw [h]
          exact (EWat.set (EW.pure.at _)).at _
        | some x =>
          simp only [hm] at h
          exact (EWat.set (encC_w hv c opt x bs h)).at _
  | .slice c, opt, v, bs, h => by
    cases v <;> simp only [Written] at h
    rename_i xs
    obtain ⟨hsz, body, rfl, hel⟩ := h
    simp only [encC]
    have hbody := fun l hl => elems_w (e := e) c (xs.getD []) body l hl (fun x b hb => encC_w hv c {} x b hb) hel
    cases hs : opt.sizeOf with
    | some s =>
      simp only [hs] at hsz
      simp only [Option.isSome_some, if_true, List.nil_append]
      exact (hbody s hsz).at _
    | none =>
      simp only [hs] at hsz
      simp only [Option.isSome_none, Bool.false_eq_true, if_false]
      refine EW.at ?_ _
      intro s he hf
      obtain ⟨c1, k1, h1, w1⟩ := writeSeqLen_w hv _ hsz s he hf
      obtain ⟨c2, k2, h2, w2⟩ := hbody _ rfl (s.left c1 k1) he (hf.left _ _)
      refine ⟨c1 ++ c2, k2, by rw [List.flatten_append, h1, h2], ?_⟩
      rw [M.bind_ok w1, M.bind_ok (M.pure_apply _ _), ← Enc.left_left]
      exact w2
  | .array n c, opt, v, bs, h => by
    cases v <;> simp only [Written] at h
    rename_i xs
    obtain ⟨rfl, hel⟩ := h
    simp only [encC]
    have := elems_w (e := e) c xs bs (xs.length : Int) rfl (fun x b hb => encC_w hv c {} x b hb) hel
    rw [Int.toNat_natCast] at this
    exact this.at _
  | .map k c, opt, v, bs, h => by
    cases v <;> simp only [Written] at h
    rename_i m
    obtain ⟨hl, hs, hd, hk, body, rfl, hb⟩ := h
    simp only [encC]
    refine EW.at ?_ _
    intro s he hf
    have h0 := entries_w (e := e) k (m.getD []) hs hd hk s
    rw [M.bind_ok h0]
    have hp := entries_perm e k (m.getD [])
    have hlen := hp.length_eq
    have h1 := (writeSeqLen_w hv (entries e k (m.getD [])).length (by omega)).seq
      (EW.each_concat (entries e k (m.getD [])) body
        (f := fun x => do
          setCurE .le
          encCore e k {} x.1
          if k.found x.1 then do
            setCurE .le
            encC e c {} x.2
          else M.panic)
        (fun x hx b hb => EWat.set <| by
          obtain ⟨b', rfl, hw⟩ := hb
          have hx' := hk x (hp.mem_iff.mp hx)
          have a1 := encCore_w hv k {} x.1 (by simpa using hx'.2)
          have a2 := EWat.set (encC_w hv c {} x.2 b' hw)
          rw [if_pos (found_of_keyEq k _ hx'.1)]
          simpa using a1.seq a2) hb)
    rw [hlen] at h1
    have := h1 s he hf
    rwa [hlen]
  | .struct fs, opt, v, bs, h => by
    cases v <;> simp only [Written] at h
    rename_i vs
    simp only [encC]
    exact (encStructC_w h (fun h => encFieldsC_w hv fs [] vs bs h) (fun i b hb h => encNthC_w hb fs i vs b h)).at _
termination_by structural c => c
theorem encFieldsC_w {e : Encoding} (hv : e.valid = true) : (fs : CFields) → (sm : List (Bytes × Int)) → (vs : List Val) →
    (bs : Bytes) → WrittenFields e fs sm vs bs → EW e (encFieldsC e fs sm vs) bs
  | .nil, sm, vs, bs, h => by
    simp only [WrittenFields] at h
    simp only [encFieldsC]
    rw [h.2]
    exact EW.pure
  | .cons m c fs, sm, [], bs, h => by simp [WrittenFields] at h
  | .cons m c fs, sm, v :: vs, bs, h => by
    simp only [WrittenFields] at h
    simp only [encFieldsC]
    by_cases hsk : m.tag.skip = true
    · rw [if_pos hsk] at h ⊢
      exact encFieldsC_w hv fs sm vs bs h
    · rw [if_neg hsk] at h ⊢
      cases ha : announce m c.erase v sm with
      | none => simp only [ha] at h
      | some sm' =>
        simp only [ha] at h
        rw [(recordSize_announce (σ := Enc) ha).1]
        have hb : ∀ f : List (Bytes × Int) → EM Unit, ((pure sm' : EM _) >>= f) = f sm' := fun f => rfl
        rw [hb]
        by_cases hx : m.exported = true
        · rw [if_pos hx] at h ⊢
          obtain ⟨body, rest, rfl, h1, h2⟩ := h
          exact field_w hv m c.erase v sm' (core := encC e c (fieldOpt m sm') v) (body := body)
            (fun hab => encC_w hv c (fieldOpt m sm') v body (h1 hab)) (encFieldsC_w hv fs sm' vs rest h2)
        · rw [if_neg hx] at h ⊢
          exact encFieldsC_w hv fs sm' vs bs h
termination_by structural fs => fs
theorem encNthC_w {e : Encoding} (hb : e = .borsh) : (fs : CFields) → (i : Nat) → (vs : List Val) → (bs : Bytes) →
    WrittenNth e fs i vs bs → EW e (encNthC e fs i vs) bs
  | .nil, i, vs, bs, h => by simp [WrittenNth] at h
  | .cons _ c fs, 0, [], bs, h => by simp [WrittenNth] at h
  | .cons _ c fs, 0, v :: vs, bs, h => by
    simp only [WrittenNth] at h
    simp only [encNthC]
    exact encPayloadC_w hb c v bs h
  | .cons _ c fs, i + 1, [], bs, h => by simp [WrittenNth] at h
  | .cons _ c fs, i + 1, _ :: vs, bs, h => by
    simp only [WrittenNth] at h
    simp only [encNthC]
    exact encNthC_w hb fs i vs bs h
termination_by structural fs => fs
theorem encPayloadC_w {e : Encoding} (hb : e = .borsh) : (c : CTy) → (v : Val) → (bs : Bytes) → WrittenPayload e c v bs →
    EW e (encPayloadC e c v) bs
  | .plain t, v, bs, h => by
    simp only [WrittenPayload] at h
    obtain ⟨h1, h2, rfl⟩ := h
    simp only [encPayloadC]
    exact encPayload_w hb t v h1 h2
  | .user c m u, v, bs, h => by
    simp only [WrittenPayload] at h
    simp only [encPayloadC]
    exact encVariantC_w hb c v bs h
  | .ptr c, v, bs, h => by
    cases v <;> simp only [WrittenPayload] at h
    rename_i p
    simp only [encPayloadC]
    cases p with
    | none => simp only at h ⊢; rw [h]; exact EW.pure
    | some x => simp only at h ⊢; exact encVariantC_w hb c x bs h
  | .struct fs, v, bs, h => by
    cases v <;> simp only [WrittenPayload] at h
    rename_i vs
    simp only [encPayloadC]
    have hv : e.valid = true := by subst hb; rfl
    exact encStructC_w h (fun h => encFieldsC_w hv fs [] vs bs h) (fun i b hb h => encNthC_w hb fs i vs b h)
  | .slice c, v, bs, h => by
    simp only [WrittenPayload] at h
    simp only [encPayloadC]
    rw [h]; exact EW.pure
  | .array n c, v, bs, h => by
    simp only [WrittenPayload] at h
    simp only [encPayloadC]
    rw [h]; exact EW.pure
  | .map k c, v, bs, h => by
    simp only [WrittenPayload] at h
    simp only [encPayloadC]
    rw [h]; exact EW.pure
termination_by structural c => c
theorem encVariantC_w {e : Encoding} (hb : e = .borsh) : (c : CTy) → (v : Val) → (bs : Bytes) → WrittenVariant e c v bs →
    EW e (encVariantC e c v) bs
  | .plain t, v, bs, h => by
    simp only [WrittenVariant] at h
    obtain ⟨h1, h2, rfl⟩ := h
    simp only [encVariantC]
    exact encVariant_w hb t v h1 h2
  | .user c m u, v, bs, h => by
    simp only [WrittenVariant] at h
    simp only [encVariantC]
    exact encVariantC_w hb c v bs h
  | .struct fs, v, bs, h => by
    cases v <;> simp only [WrittenVariant] at h
    rename_i vs
    simp only [encVariantC]
    have hv : e.valid = true := by subst hb; rfl
    exact encStructC_w h (fun h => encFieldsC_w hv fs [] vs bs h) (fun i b hb h => encNthC_w hb fs i vs b h)
  | .ptr c, v, bs, h => by
    simp only [WrittenVariant] at h
    simp only [encVariantC]
    rw [h]; exact EW.pure
  | .slice c, v, bs, h => by
    simp only [WrittenVariant] at h
    simp only [encVariantC]
    rw [h]; exact EW.pure
  | .array n c, v, bs, h => by
    simp only [WrittenVariant] at h
    simp only [encVariantC]
    rw [h]; exact EW.pure
  | .map k c, v, bs, h => by
    simp only [WrittenVariant] at h
    simp only [encVariantC]
    rw [h]; exact EW.pure
termination_by structural c => c
end

/-! ### reading -/

section
variable {e : Encoding}

theorem RD.repeat_concat {α : Type} {f : DM α} {P : α → Bytes → Prop} : (xs : List α) → (bs : Bytes) →
    (∀ x ∈ xs, ∀ b, P x b → RD e f b x) → Concat P xs bs → RD e (repeatM f xs.length) bs xs
  | [], bs, _, h => by
    simp only [Concat] at h
    subst h; exact RD.pure []
  | x :: xs, bs, hp, h => by
    simp only [Concat] at h
    obtain ⟨b, rest, rfl, h1, h2⟩ := h
    rw [List.length_cons]
    unfold repeatM
    exact (hp x (by simp) b h1).bind ((RD.repeat_concat xs rest (fun y hy => hp y (by simp [hy])) h2).bind_pure)

theorem RD.traverse_concat {α δ : Type} {f : δ → DM α} (z : δ) {P : α → Bytes → Prop} : (xs : List α) → (bs : Bytes) →
    (∀ x ∈ xs, ∀ b, P x b → RD e (f z) b x) → Concat P xs bs → RD e (traverseM f (List.replicate xs.length z)) bs xs
  | [], bs, _, h => by
    simp only [Concat] at h
    subst h; exact RD.pure []
  | x :: xs, bs, hp, h => by
    simp only [Concat] at h
    obtain ⟨b, rest, rfl, h1, h2⟩ := h
    rw [List.length_cons, List.replicate_succ]
    unfold traverseM
    exact (hp x (by simp) b h1).bind ((RD.traverse_concat z xs rest (fun y hy => hp y (by simp [hy])) h2).bind_pure)

/-- The flags of a field. -/
theorem fieldC_r (hv : e.valid = true) (m : FieldMeta) (c : CTy) (sm : List (Bytes × Int)) {P : Bytes → Val → Prop}
    {core : DM Val} {bs : Bytes} {r : Val} (ho : e = .borsh → m.tag.order = .le)
    (hc : ∀ b x, P b x → RDat e m.tag.order core b x) (h : ReadField e m c P bs r) :
    RD e (decFieldC e c (fieldOpt m sm) c.erase.zero core) bs r := by
  unfold ReadField at h
  unfold decFieldC
  rw [show (fieldOpt m sm).optional = m.tag.option from rfl, show (fieldOpt m sm).coptional = m.tag.coption from rfl]
  refine RDat.set ho ?_
  have hskip : ∀ {α : Type} {k : DM α} {f : α → DM Val} {fl body : Bytes} {a : α} {x : Val}, Reads e k fl a →
      RDat e m.tag.order (f a) body x → RDat e m.tag.order (k >>= f) (fl ++ body) x := by
    intro α k f fl body a x h1 h2 d tail hd hok hr hb hcur
    have hr' : d.rest = fl ++ (body ++ tail) := by simpa using hr
    rw [M.bind_ok (h1 d _ hd hok hr')]
    obtain ⟨c, hc', hx⟩ := h2 (d.adv fl.length) tail hd (Dec.adv_ok_append hok hr') (Dec.adv_rest_append hok hr') hb hcur
    exact ⟨c, hc', by rw [hx]; simp⟩
  by_cases hopt : m.tag.option = true
  · rw [if_pos hopt] at h ⊢
    obtain ⟨hn, h⟩ := h
    rw [if_neg (by rw [hn]; decide)]
    rcases h with ⟨rfl, rfl⟩ | ⟨body, rfl, h⟩
    · have := hskip (f := fun present => if present = true then
          if e = .borsh ∧ m.tag.coption = true then
            if c.leadsToReader = true then M.panic
            else do
              let present ← readCOption
              if present = true then core else pure (absentBase c.erase)
          else core
        else pure (absentVal c.erase c.erase.zero)) (body := []) (x := c.erase.zero) (readFlag_r hv false)
        (by rw [absentVal_zero]; exact (RD.pure _).at _)
      rw [List.append_nil] at this
      exact this
    · refine hskip (readFlag_r hv true) ?_
      simp only [if_true]
      by_cases hco : e = .borsh ∧ m.tag.coption = true
      · rw [if_pos hco] at h ⊢
        obtain ⟨hl, b, rfl, hb⟩ := h
        rw [if_neg (by rw [hl]; decide)]
        exact hskip (readCOption_r true) (hc _ _ hb)
      · rw [if_neg hco] at h ⊢
        exact hc _ _ h
  · rw [if_neg hopt] at h ⊢
    by_cases hco : e = .borsh ∧ m.tag.coption = true
    · rw [if_pos hco] at h ⊢
      obtain ⟨hn, h⟩ := h
      rw [if_neg (by rw [hn]; decide)]
      rcases h with ⟨rfl, rfl⟩ | ⟨b, rfl, h⟩
      · have := hskip (f := fun present => if present = true then core else pure (absentVal c.erase c.erase.zero))
          (body := []) (x := c.erase.zero) (readCOption_r false) (by rw [absentVal_zero]; exact (RD.pure _).at _)
        rw [List.append_nil] at this
        exact this
      · exact hskip (readCOption_r true) (hc _ _ h)
    · rw [if_neg hco] at h ⊢
      exact hc _ _ h

/-- What `ReadAs` says about a struct. -/
def ReadStruct (e : Encoding) (fs : CFields) (bs : Bytes) (r : Val) : Prop :=
  if e = .borsh ∧ fs.isEnum then
    ∃ n b rs, n < 256 ∧ n + 1 < fs.length ∧ bs = fixed .le 1 n ++ b ∧ ReadNth e fs (n + 1) b rs ∧ r = .struct (.uint n :: rs.tail)
  else ∃ rs, ReadFields e fs [] false bs rs ∧ r = .struct rs

theorem decStructC_r {fs : CFields} {bs : Bytes} {r : Val} {fields : DM (List Val)} {nth : Nat → DM (List Val)}
    (h : ReadStruct e fs bs r)
    (hf : ∀ rs, ReadFields e fs [] false bs rs → RD e fields bs rs)
    (hn : ∀ i b rs, ReadNth e fs i b rs → RD e (nth i) b rs) :
    RD e (decStructC e fs fields nth) bs r := by
  unfold ReadStruct at h
  unfold decStructC
  by_cases hc : e = .borsh ∧ fs.isEnum = true
  · rw [if_pos hc] at h ⊢
    obtain ⟨n, b, rs, h1, h2, rfl, h3, rfl⟩ := h
    rw [fixed_one]
    refine (readUint8_reads e n h1).rd.bind ?_
    rw [if_neg (by omega)]
    exact (hn (n + 1) b rs h3).bind_pure (f := fun vs => Val.struct (.uint n :: vs.tail))
  · rw [if_neg hc] at h ⊢
    obtain ⟨rs, h1, rfl⟩ := h
    exact (hf rs h1).bind_pure (f := Val.struct)

theorem plain_r (hv : e.valid = true) (t : Ty) (opt : Opt) (bs : Bytes) (r : Val) (ho : e = .borsh → opt.order = .le)
    (h : ReadPlain e t opt.order opt.sizeOf bs r) : RDat e opt.order (decCore e t opt t.zero) bs r := by
  obtain ⟨v, h1, h2, rfl, rfl⟩ := h
  exact decCore_r hv t opt v ho h1 h2

mutual
theorem decC_r (hv : e.valid = true) : (c : CTy) → (opt : Opt) → (bs : Bytes) → (r : Val) → (e = .borsh → opt.order = .le) →
    ReadAs e c opt.order opt.sizeOf bs r → RDat e opt.order (decC e c opt c.erase.zero) bs r
  | .plain t, opt, bs, r, ho, h => by
    simp only [ReadAs] at h
    simp only [decC, CTy.erase]
    exact plain_r hv t opt bs r ho h
  | .user c m u, opt, bs, r, ho, h => by
    cases u with
    | some g =>
      simp only [ReadAs] at h
      simp only [decC, CTy.erase]
      exact h.rd
    | none =>
      simp only [ReadAs] at h
      simp only [decC, CTy.erase]
      exact decC_r hv c opt bs r ho h
  | .ptr c, opt, bs, r, ho, h => by
    simp only [ReadAs] at h
    obtain ⟨x, rfl, h⟩ := h
    simp only [decC, CTy.erase, Ty.zero, Val.deref]
    exact (decC_r hv c opt bs x ho h).bind_pure (f := fun x => Val.ptr (some x))
  | .slice c, opt, bs, r, ho, h => by
    simp only [ReadAs] at h
    obtain ⟨xs, body, hsz, rfl, hle, hel, rfl⟩ := h
    have hmax : xs.length < 2 ^ 31 := by
      have := readMax_lt e
      cases hs : opt.sizeOf with
      | none => rw [hs] at hsz; simp only at hsz; omega
      | some s => rw [hs] at hsz; exact hsz.2
    simp only [decC, CTy.erase, Ty.zero]
    have hbody : RD e
        (if e = .borsh ∧ (xs.length : Int) = 0 then pure (Val.seq none)
        else do
          let d ← M.get
          if (xs.length : Int) > d.remaining then M.err .eof
          else
            match c.erase.uintKind with
            | some w => do
              let ys ← readUints (xs.length : Int) w
              pure (Val.seq (some ys))
            | none => do
              let ys ← repeatM (do setCurD .le; decC e c {} c.erase.zero) (xs.length : Int).toNat
              pure (Val.seq (some ys)))
        body (Val.seq (if e = .borsh ∧ xs = [] then none else some xs)) := by
      unfold Elems at hel
      by_cases hz : e = .borsh ∧ xs = []
      · rw [if_pos hz, if_pos ⟨hz.1, by rw [hz.2]; rfl⟩]
        have hb : body = [] := by
          obtain ⟨-, rfl⟩ := hz
          cases hu : c.erase.uintKind with
          | some w => rw [hu] at hel; simpa using hel.2
          | none => rw [hu] at hel; simpa [Concat] using hel
        subst hb
        exact RD.pure _
      · have hz' : ¬ (e = .borsh ∧ (xs.length : Int) = 0) := fun h => hz ⟨h.1, List.length_eq_zero_iff.mp (by omega)⟩
        rw [if_neg hz, if_neg hz']
        refine RD.enough (Int.ofNat_le.mpr hle) ?_
        cases hu : c.erase.uintKind with
        | some w =>
          simp only [hu] at hel ⊢
          obtain ⟨h1, rfl⟩ := hel
          exact (readUints_r (e := e) w xs h1 hmax).bind_pure (f := fun xs => Val.seq (some xs))
        | none =>
          simp only [hu] at hel ⊢
          rw [Int.toNat_natCast]
          exact (RD.repeat_concat (f := (do setCurD .le; decC e c {} c.erase.zero)) xs body
            (fun x _ b hb => RDat.set (fun _ => rfl) (decC_r hv c {} b x (fun _ => rfl) hb)) hel).bind_pure
              (f := fun xs => Val.seq (some xs))
    cases hs : opt.sizeOf with
    | some s =>
      simp only [hs] at hsz
      obtain ⟨rfl, -⟩ := hsz
      simp only [Option.isSome_some, if_true, List.nil_append]
      exact hbody.at _
    | none =>
      simp only [hs] at hsz
      simp only [Option.isSome_none, Bool.false_eq_true, if_false]
      exact ((readSeqLen_r hv _ hsz).rd.bind hbody).at _
  | .array n c, opt, bs, r, ho, h => by
    simp only [ReadAs] at h
    obtain ⟨xs, rfl, hn, hel, rfl⟩ := h
    simp only [decC, CTy.erase, Ty.zero, Val.elems]
    unfold Elems at hel
    cases hu : c.erase.uintKind with
    | some w =>
      simp only [hu] at hel ⊢
      obtain ⟨h1, rfl⟩ := hel
      exact ((readUints_r (e := e) w xs h1 (hn (by rw [hu]; rfl))).bind_pure (f := Val.arr)).at _
    | none =>
      simp only [hu] at hel ⊢
      exact ((RD.traverse_concat (f := fun x => do setCurD .le; decC e c {} x) c.erase.zero xs bs
        (fun x _ b hb => RDat.set (fun _ => rfl) (decC_r hv c {} b x (fun _ => rfl) hb)) hel).bind_pure (f := Val.arr)).at _
  | .map k c, opt, bs, r, ho, h => by
    simp only [ReadAs] at h
    obtain ⟨xs, body, hmax, rfl, hd, hc, rfl⟩ := h
    simp only [decC, CTy.erase, Ty.zero]
    refine RD.at ?_ _
    refine (readSeqLen_r hv _ hmax).rd.bind ?_
    by_cases hz : xs = []
    · subst hz
      simp only [Concat] at hc
      subst hc
      exact RD.pure _
    · rw [if_neg hz, if_neg (fun h => hz (List.length_eq_zero_iff.mp h))]
      have h1 := RD.repeat_concat (e := e)
        (f := do
          setCurD .le
          let x ← decCore e k {} k.zero
          setCurD .le
          let y ← decC e c {} c.erase.zero
          pure (x, y)) xs body (fun x _ b hb => by
          obtain ⟨b1, b2, rfl, hb1, hb2⟩ := hb
          refine RDat.set (fun _ => rfl) ?_
          refine (plain_r hv k {} b1 x.1 (fun _ => rfl) hb1).bind ?_
          refine RDat.set (fun _ => rfl) ?_
          exact (decC_r hv c {} b2 x.2 (fun _ => rfl) hb2).bind_pure (f := fun y => (x.1, y))) hc
      have h2 := h1.bind_pure (f := fun xs => Val.map (some (xs.foldl (fun m x => setEntry k x m) [])))
      rw [foldl_setEntry _ [] (by rw [List.nil_append]; exact hd), List.nil_append] at h2
      exact h2
  | .struct fs, opt, bs, r, ho, h => by
    simp only [ReadAs] at h
    simp only [decC, CTy.erase, Ty.zero, zeros_fields]
    exact (decStructC_r h (fun rs h => decFieldsC_r hv fs [] false bs rs h) (fun i b rs h => decNthC_r hv fs i b rs h)).at _
termination_by structural c => c
theorem decFieldsC_r (hv : e.valid = true) : (fs : CFields) → (sm : List (Bytes × Int)) → (seen : Bool) → (bs : Bytes) →
    (rs : List Val) → ReadFields e fs sm seen bs rs → RD e (decFieldsC e fs sm seen fs.erase.zeros) bs rs
  | .nil, sm, seen, bs, rs, h => by
    simp only [ReadFields] at h
    simp only [decFieldsC, CFields.erase, Fields.zeros]
    rw [h.1, h.2]
    exact RD.pure _
  | .cons m c fs, sm, seen, bs, [], h => by simp [ReadFields] at h
  | .cons m c fs, sm, seen, bs, r :: rs, h => by
    simp only [ReadFields] at h
    simp only [CFields.erase, Fields.zeros, decFieldsC]
    by_cases hsk : m.tag.skip = true
    · rw [if_pos hsk] at h ⊢
      rw [h.1]
      exact (decFieldsC_r hv fs sm seen bs rs h.2).bind_pure (f := fun rest => c.erase.zero :: rest)
    · rw [if_neg hsk] at h ⊢
      obtain ⟨hseen, h⟩ := h
      rw [if_neg (by
        intro hc
        simp only [Bool.and_eq_true, Bool.not_eq_true'] at hc
        rw [hseen hc.2] at hc; exact absurd hc.1 (by decide))]
      by_cases hx : m.exported = true
      · rw [if_pos hx] at h
        obtain ⟨b, rest, rfl, hext, h⟩ := h
        refine RD.ext (fun hbe h0 => hext hbe (List.append_eq_nil_iff.mp h0).1) ?_
        simp only [hx, Bool.not_true, Bool.or_false, Bool.false_eq_true, if_false]
        cases hd : (if e = .borsh then c.direct else none) with
        | some p =>
          obtain ⟨g, z, isPtr⟩ := p
          simp only [hd] at h
          obtain ⟨⟨x, hx, rfl⟩, hr⟩ := h
          have hbo : e = .borsh := by
            by_cases hb : e = .borsh
            · exact hb
            · rw [if_neg hb] at hd; cases hd
          have hg : RD e (g z) b x := by
            intro d tail he ho' hr hb
            exact hx.rd d tail he ho' hr hb (hb hbo)
          exact hg.bind ((decFieldsC_r hv fs sm (seen || m.tag.binExt) rest rs hr).bind_pure
            (f := fun rest => (if isPtr = true then Val.ptr (some x) else x) :: rest))
        | none =>
          simp only [hd] at h
          obtain ⟨ho, hf, sm', ha, hr⟩ := h
          refine (fieldC_r hv m c sm ho (fun b x hb => decC_r hv c (fieldOpt m sm) b x ho hb) hf).bind ?_
          rw [(recordSize_announce (σ := Dec) ha).1]
          exact (decFieldsC_r hv fs sm' (seen || m.tag.binExt) rest rs hr).bind_pure (f := fun rest => r :: rest)
      · rw [if_neg hx] at h
        refine RD.ext_any fun a => ?_
        rw [if_pos (by simp [hx]), h.1]
        exact (decFieldsC_r hv fs sm (seen || m.tag.binExt) bs rs h.2).bind_pure (f := fun rest => c.erase.zero :: rest)
termination_by structural fs => fs
theorem decNthC_r (hv : e.valid = true) : (fs : CFields) → (i : Nat) → (bs : Bytes) → (rs : List Val) → ReadNth e fs i bs rs →
    RD e (decNthC e fs i fs.erase.zeros) bs rs
  | .nil, i, bs, rs, h => by simp [ReadNth] at h
  | .cons _ c fs, 0, bs, rs, h => by
    simp only [ReadNth] at h
    obtain ⟨x, hx, rfl⟩ := h
    simp only [CFields.erase, Fields.zeros, decNthC]
    refine RDat.set (fun _ => rfl) ?_
    exact (decC_r hv c {} bs x (fun _ => rfl) hx).bind_pure (f := fun x => x :: fs.erase.zeros)
  | .cons _ c fs, i + 1, bs, rs, h => by
    simp only [ReadNth] at h
    obtain ⟨ws, hw, rfl⟩ := h
    simp only [CFields.erase, Fields.zeros, decNthC]
    exact (decNthC_r hv fs i bs ws hw).bind_pure (f := fun rest => c.erase.zero :: rest)
termination_by structural fs => fs
end
end

end Verif
