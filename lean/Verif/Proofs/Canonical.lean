import Verif.Proofs.Got
import Verif.Spec.Canonical
/-!
Whatever the decoder accepts for a canonical type is the encoding of what it returns.
-/
set_option linter.unusedSimpArgs false
namespace Verif
open Spec

section
variable {e : Encoding} {o : Order}

theorem Got.assume {α : Type} {r : DM α} {P : Bytes → α → Prop} (h : (e = .borsh → o = .le) → Got e o r P) : Got e o r P :=
  fun d ho he hc hb => h hb d ho he hc hb

theorem readSeqLen_got (hv : e.valid = true) (hb : e ≠ .bin) : Took e (readSeqLen e) fun bs n =>
    bs = lenPrefix e n ∧ n ≤ maxLen e := by
  cases e
  · exact absurd rfl hb
  · exact readCompactU16_took.weaken fun bs n h => h
  · exact (readUint32_took .le).weaken fun bs n h => ⟨h.2, by simp only [maxLen]; omega⟩
  · cases hv

theorem readByteSlice_got (hv : e.valid = true) (hb : e ≠ .bin) : Took e readByteSlice fun bs b =>
    bs = lenPrefix e b.length ++ b ∧ b.length ≤ maxLen e ∧ b.length < 2 ^ 31 := by
  rw [readByteSlice_def]
  refine Took.bind (P := fun bs n => bs = lenPrefix e n ∧ n ≤ maxLen e ∧ n < 2 ^ 31) ?_ fun b1 n hn =>
    (sliceBody_took n).weaken fun bs b h => by
      obtain ⟨rfl, rfl⟩ := h
      exact ⟨by rw [hn.1], hn.2⟩
  intro d ho hd a d' h
  rw [readLength_enc, hd] at h
  have key : ∀ (r : DM Nat), Took e r (fun bs n => bs = lenPrefix e n ∧ n ≤ maxLen e ∧ n < 2 ^ 31) → r d = (.ok a, d') →
      ∃ bs tail, d.rest = bs ++ tail ∧ d' = d.adv bs.length ∧ bs = lenPrefix e a ∧ a ≤ maxLen e ∧ a < 2 ^ 31 :=
    fun r hr => hr d ho hd a d'
  cases e with
  | other => cases hv
  | bin => exact absurd rfl hb
  | borsh =>
    refine key _ ((readUint32_took .le).bind fun p n hn => Took.ite (fun _ => Took.err _) fun hle => Took.pure _ ?_) h
    rw [List.append_nil]
    exact ⟨hn.2, by simp only [maxLen]; omega, by omega⟩
  | compactU16 =>
    refine key _ (readCompactU16_took.weaken fun p n hn => ⟨hn.1, hn.2, by omega⟩) h

theorem decStr_got (hv : e.valid = true) (o' : Order) : Took e (decScalar e .string o') fun bs v =>
    ∃ s, v = .str s ∧ bs = strPrefix e s.length ++ s ∧ s.length ≤ maxStr e := by
  simp only [decScalar]
  by_cases hb : e = .bin
  · rw [if_pos hb]
    refine Took.map (P := fun bs s => bs = fixed .le 8 s.length ++ s ∧ s.length < 2 ^ 31) ?_ ?_
    · unfold readRustString
      refine (readUint64_took .le).bind fun p n hn => Took.ite (fun _ => Took.err _) fun hle =>
        (readNBytes_took n).weaken fun bs b h => ?_
      obtain ⟨rfl, h1, h2⟩ := h
      have hn' : n = bs.length := by omega
      exact ⟨by rw [hn.2, hn'], h2⟩
    · rintro bs s ⟨rfl, h⟩
      exact ⟨s, rfl, by simp [strPrefix, hb], by subst hb; simp only [maxStr]; omega⟩
  · rw [if_neg hb]
    refine (readByteSlice_got hv hb).map ?_
    rintro bs s ⟨rfl, h, -⟩
    exact ⟨s, rfl, by simp [strPrefix, hb], by cases e <;> first | exact absurd rfl hb | exact h⟩

theorem decUint_got (w : Width) (o' : Order) : Took e (decScalar e (.uint w) o') fun bs v =>
    ∃ n, v = .uint n ∧ n < 2 ^ w.bits ∧ bs = fixed o' w.bytes n := by
  cases w <;> simp only [decScalar, Width.bytes, Width.bits]
  · refine readByte_took.map fun bs b h => ⟨_, rfl, b.toNat_lt, by rw [h, fixed_one']; simp⟩
  · exact (readUint16_took o').map fun bs n h => ⟨n, rfl, h.1, h.2⟩
  · exact (readUint32_took o').map fun bs n h => ⟨n, rfl, h.1, h.2⟩
  · exact (readUint64_took o').map fun bs n h => ⟨n, rfl, h.1, h.2⟩

theorem decInt_got (w : Width) (o' : Order) : Took e (decScalar e (.int w) o') fun bs v =>
    ∃ z, v = .int z ∧ (-2 ^ (w.bits - 1) ≤ z ∧ z < 2 ^ (w.bits - 1)) ∧ bs = fixed o' w.bytes (twos w.bits z) := by
  cases w <;> simp only [decScalar, Width.bytes, Width.bits]
  · exact readInt8_took.map fun bs z h => ⟨z, rfl, ⟨h.1, h.2.1⟩, by rw [fixed_one', ← fixed_one, h.2.2]⟩
  · exact (readInt16_took o').map fun bs z h => ⟨z, rfl, ⟨h.1, h.2.1⟩, h.2.2⟩
  · exact (readInt32_took o').map fun bs z h => ⟨z, rfl, ⟨h.1, h.2.1⟩, h.2.2⟩
  · exact (readInt64_took o').map fun bs z h => ⟨z, rfl, ⟨h.1, h.2.1⟩, h.2.2⟩

theorem uintW_took (w : Width) : Took e (readUintW w .le) fun bs n => n < 2 ^ w.bits ∧ bs = fixed .le w.bytes n := by
  cases w <;> simp only [readUintW, Width.bytes, Width.bits]
  · exact readUint8_took
  · exact readUint16_took .le
  · exact readUint32_took .le
  · exact readUint64_took .le

theorem readUints_got (l : Int) (w : Width) (hl : 0 ≤ l) : Got e o (readUints l w) fun bs xs =>
    (xs.length : Int) = l ∧ bs = xs.flatMap (uintWire w) ∧ ∀ x ∈ xs, UintElem w x := by
  unfold readUints
  refine Got.get fun d0 _ _ _ => Got.ite (fun _ => Got.err _) fun _ => ?_
  have hword : Got e o (if l < 0 then M.panic else do
        let ns ← repeatM (readUintW w .le) l.toNat
        pure (ns.map Val.uint)) fun bs xs => (xs.length : Int) = l ∧ bs = xs.flatMap (uintWire w) ∧ ∀ x ∈ xs, UintElem w x := by
    rw [if_neg (by omega)]
    have hr := Got.repeat (e := e) (f := readUintW w .le) (g := fun n => fixed .le w.bytes n)
      (P := fun _ n => n < 2 ^ w.bits) (fun o => ((uintW_took w).weaken fun bs n h => ⟨h.2, h.1⟩).got) l.toNat o
    refine hr.map fun bs ns h => ?_
    obtain ⟨h1, rfl, h3⟩ := h
    refine ⟨by rw [List.length_map, h1]; omega, by rw [List.flatMap_map]; rfl, ?_⟩
    intro x hx
    obtain ⟨n, hn, rfl⟩ := List.mem_map.mp hx
    exact h3 n hn
  cases w
  · refine (readNBytes_took l).got.map fun bs b h => ?_
    obtain ⟨rfl, h1, -⟩ := h
    refine ⟨by rw [List.length_map]; exact h1, ?_, ?_⟩
    · rw [List.flatMap_map]
      clear h1 hword
      induction bs with
      | nil => rfl
      | cons x t ih =>
        rw [List.flatMap_cons, ← ih]
        simp only [uintWire, Width.bytes, fixed_one]
        simp
    · intro x hx
      obtain ⟨n, hn, rfl⟩ := List.mem_map.mp hx
      exact n.toNat_lt
  · exact hword
  · exact hword
  · exact hword

theorem unmarshalLib_got (hv : e.valid = true) (l : Lib) (hl : canonicalLib e l = true) :
    Got e o (unmarshalLib l l.zero) fun bs v => LibEnc e l v ∧ bs = libWire e l o v := by
  cases l <;> simp only [canonicalLib] at hl <;> (try contradiction) <;> simp only [unmarshalLib]
  case hexBytes =>
    refine (readByteSlice_got hv (by simpa using hl)).got.map fun bs b h => ?_
    exact ⟨h.2.1, h.1⟩
  case jsonFloat64 =>
    refine Got.get fun d0 _ _ hc => ?_
    rw [hc]
    exact (readFloat64_took o).got.map fun bs n h => ⟨⟨h.1, h.2.2⟩, h.2.1⟩
  case int64 =>
    refine Got.get fun d0 _ _ hc => ?_
    rw [hc]
    exact (readInt64_took o).got.map fun bs n h => ⟨⟨h.1, h.2.1⟩, h.2.2⟩
  case uint64 =>
    refine Got.get fun d0 _ _ hc => ?_
    rw [hc]
    exact (readUint64_took o).got.map fun bs n h => ⟨h.1, h.2⟩
  case uint128 | int128 | float128 =>
    refine Got.get fun d0 _ _ hc => ?_
    rw [hc, order128_some]
    exact (readUint128_took o).got.map fun bs n h => ⟨⟨h.1, h.2.1⟩, h.2.2⟩
  case emptyVariant => exact Got.pure _ ⟨rfl, rfl⟩

end

theorem sizeof_unsigned {t : Ty} {v : Val} {n : Int} (h1 : isInteger t.kind = true) (h2 : isSigned t.kind = false)
    (h : sizeofVal t.kind v = .ok n) : 0 ≤ n := by
  cases hk : t.kind <;> rw [hk] at h1 h2 h <;> simp [isInteger, isSigned] at h1 h2 <;>
    cases v <;> simp only [sizeofVal] at h <;> (try contradiction) <;>
    simp only [Res.ok.injEq] at h <;> subst h <;> split <;> omega

/-- The decoder's bookkeeping of announced sizes. -/
theorem recordSize_got {e : Encoding} {o : Order} {m : FieldMeta} {t : Ty} {v : Val} {sm : List (Bytes × Int)} :
    Got e o (recordSize m t v sm) fun bs sm' => bs = [] ∧ announce m t v sm = some sm' := by
  unfold recordSize announce
  by_cases h0 : m.tag.sizeOf = []
  · rw [if_pos h0, if_pos h0]; exact Got.pure _ ⟨rfl, rfl⟩
  · rw [if_neg h0, if_neg h0]
    cases hs : sizeofVal t.kind v with
    | ok n => exact Got.pure _ ⟨rfl, rfl⟩
    | err x => exact Got.err _
    | panic => exact Got.panic

theorem announce_names {m : FieldMeta} {t : Ty} {v : Val} {sm sm' : List (Bytes × Int)} (h : announce m t v sm = some sm') :
    sm'.map (·.1) = announced m (sm.map (·.1)) := by
  unfold announce at h
  unfold announced
  by_cases h0 : m.tag.sizeOf = []
  · rw [if_pos h0] at h ⊢; cases h; rfl
  · rw [if_neg h0] at h ⊢
    split at h
    · cases h; rfl
    · cases h

theorem lookup_nonneg {sm : List (Bytes × Int)} {name : Bytes} {s : Int} (h : ∀ p ∈ sm, 0 ≤ p.2)
    (hs : lookupSize name sm = some s) : 0 ≤ s := by
  induction sm with
  | nil => cases hs
  | cons p sm ih =>
    obtain ⟨n, x⟩ := p
    unfold lookupSize at hs
    split at hs
    · cases hs; exact h (n, s) (by simp)
    · exact ih (fun p hp => h p (by simp [hp])) hs

theorem zeros_length (fs : Fields) : fs.zeros.length = fs.length := by
  induction fs using Fields.rec (motive_1 := fun _ => True) <;> simp_all [Fields.zeros, Fields.length]

mutual
theorem decCore_got {e : Encoding} (hv : e.valid = true) : (t : Ty) → (opt : Opt) →
    canonical e t opt.sizeOf.isSome = true → (∀ s, opt.sizeOf = some s → 0 ≤ s) →
    Got e opt.order (decCore e t opt t.zero) fun bs v =>
      Encodable e t opt.sizeOf v ∧ bs = wire e t opt.order opt.sizeOf.isSome v
  | .uint w b, opt, _, _ => by
    simp only [decCore, decPlain]
    refine (decUint_got w _).got.weaken fun bs v h => ?_
    obtain ⟨n, rfl, h1, rfl⟩ := h
    exact ⟨by simpa only [Encodable] using h1, by simp only [wire, ord]⟩
  | .int w b, opt, _, _ => by
    simp only [decCore, decPlain]
    refine (decInt_got w _).got.weaken fun bs v h => ?_
    obtain ⟨n, rfl, h1, rfl⟩ := h
    exact ⟨by simpa only [Encodable] using h1, by simp only [wire, ord]⟩
  | .borshEnum, opt, _, _ => by
    simp only [decCore, decPlain]
    refine (decUint_got .w8 _).got.weaken fun bs v h => ?_
    obtain ⟨n, rfl, h1, rfl⟩ := h
    exact ⟨by simp only [Encodable]; exact h1, by simp only [wire, Width.bytes]; rw [fixed_one', fixed_one']⟩
  | .f32, opt, hc, _ => by
    simp only [canonical] at hc
    have hb : e = .borsh := by simpa using hc
    simp only [decCore, decPlain, decScalar]
    refine (readFloat32_took _).got.map fun bs n h => ?_
    have hs : ¬ signalling32 n := fun hs => by
      have := h.2.2 hb
      rw [hs.1] at this; cases this
    rw [f32ViaF64_eq hs]
    exact ⟨by simp only [Encodable]; exact ⟨h.1, hs, h.2.2⟩, by simp only [wire, ord]; exact h.2.1⟩
  | .f64, opt, _, _ => by
    simp only [decCore, decPlain, decScalar]
    refine (readFloat64_took _).got.map fun bs n h => ?_
    exact ⟨by simp only [Encodable]; exact ⟨h.1, h.2.2⟩, by simp only [wire, ord]; exact h.2.1⟩
  | .str, opt, _, _ => by
    simp only [decCore, decPlain]
    refine (decStr_got hv _).got.weaken fun bs v h => ?_
    obtain ⟨s, rfl, rfl, h1⟩ := h
    exact ⟨by simpa only [Encodable] using h1, by simp only [wire]⟩
  | .lib l, opt, hc, _ => by
    simp only [canonical] at hc
    simp only [decCore, Ty.zero]
    refine (unmarshalLib_got hv l hc).weaken fun bs v h => ?_
    exact ⟨by simpa only [Encodable] using h.1, by rw [wire_lib]; exact h.2⟩
  | .ptr t, opt, hc, hs => by
    simp only [canonical, Bool.and_eq_true] at hc
    refine Got.assume fun hb => ?_
    have hsz : e = .borsh → opt.sizeOf = none := by
      intro h
      have := hc.1
      rw [h] at this
      cases ho : opt.sizeOf <;> simp_all
    simp only [decCore, Ty.zero, Val.deref]
    refine (decCore_got hv t opt hc.2 hs).map fun bs v h => ?_
    obtain ⟨h1, rfl⟩ := h
    constructor
    · simp only [Encodable]
      split
      · rename_i h; rw [← hsz h]; exact h1
      · exact h1
    · simp only [wire]
      split
      · rename_i h
        rw [hb h.1, hsz h.1]; rfl
      · rfl
  | .slice t, opt, hc, hs => by
    simp only [canonical, Bool.and_eq_true, Bool.or_eq_true] at hc
    simp only [decCore, Ty.zero]
    have hcont : ∀ (b1 : Bytes) (l : Int), (0 ≤ l ∧ ((opt.sizeOf = some l ∧ b1 = []) ∨
        (opt.sizeOf = none ∧ b1 = lenPrefix e l.toNat ∧ l.toNat ≤ maxLen e))) → ∀ o',
        Got e o' (if e = .borsh ∧ l = 0 then pure (.seq none)
        else do
          let d ← M.get
          if l > d.remaining then M.err .eof
          else
            match t.uintKind with
            | some w => do
              let xs ← readUints l w
              pure (.seq (some xs))
            | none => do
              let xs ← repeatM (do setCurD .le; decCore e t {} t.zero) l.toNat
              pure (.seq (some xs))) fun bs v =>
        Encodable e (.slice t) opt.sizeOf v ∧ b1 ++ bs = wire e (.slice t) opt.order opt.sizeOf.isSome v := by
      intro b1 l hl o'
      have hfin : ∀ bs (xs : List Val), (xs.length : Int) = l →
          bs = (xs.flatMap fun x => match t.uintKind with
            | some w => uintWire w x
            | none => wire e t .le false x) →
          (∀ x ∈ xs, match t.uintKind with
            | some w => UintElem w x
            | none => Encodable e t none x) → ∀ ys : Option (List Val), ys.getD [] = xs →
          Encodable e (.slice t) opt.sizeOf (.seq ys) ∧
            b1 ++ bs = wire e (.slice t) opt.order opt.sizeOf.isSome (.seq ys) := by
        intro bs xs hx hbs hall ys hys
        simp only [Encodable, wire, hys]
        rcases hl.2 with ⟨h1, rfl⟩ | ⟨h1, rfl, h2⟩
        · rw [h1]
          exact ⟨⟨hx.symm, hall⟩, by rw [hbs]; rfl⟩
        · have hn : xs.length = l.toNat := by omega
          rw [h1]
          exact ⟨⟨by rw [hn]; exact h2, hall⟩, by rw [hbs, hn]; rfl⟩
      refine Got.ite (fun h0 => ?_) fun h0 => ?_
      · refine Got.pure _ (hfin [] [] ?_ rfl (by simp) none rfl)
        rw [h0.2]; rfl
      refine Got.get fun d0 _ _ _ => Got.ite (fun _ => Got.err _) fun _ => ?_
      cases hk : t.uintKind with
      | some w =>
        simp only []
        refine (readUints_got l w hl.1).map fun bs xs h => hfin bs xs h.1 ?_ ?_ (some xs) rfl
        · rw [hk]; exact h.2.1
        · rw [hk]; exact h.2.2
      | none =>
        simp only []
        have hct : canonical e t false = true := by rw [hk] at hc; simpa using hc.2
        have hel := decCore_got hv t {} hct (by intro s h; cases h)
        have hr := Got.repeat (e := e) (f := do setCurD .le; decCore e t {} t.zero) (g := fun x => wire e t .le false x)
          (P := fun _ x => Encodable e t none x)
          (fun o => Got.set (fun _ => rfl) (hel.weaken fun bs v h => ⟨h.2, h.1⟩)) l.toNat o'
        refine hr.map fun bs xs h => hfin bs xs (by have := h.1; have := hl.1; omega) ?_ ?_ (some xs) rfl
        · rw [hk]; exact h.2.1
        · rw [hk]; exact h.2.2
    cases ho : opt.sizeOf with
    | some s =>
      simp only []
      have := hcont [] s ⟨hs s ho, Or.inl ⟨ho, rfl⟩⟩ opt.order
      rw [ho] at this
      exact this
    | none =>
      simp only []
      rw [ho] at hc
      refine (readSeqLen_got hv (by simpa using hc.1)).got.bind fun b1 n o' hn => ?_
      have := hcont b1 n ⟨by omega, Or.inr ⟨ho, by simpa using hn⟩⟩ o'
      rw [ho] at this
      exact this
  | .array n t, opt, hc, hs => by
    simp only [canonical, Bool.or_eq_true] at hc
    simp only [decCore, Ty.zero, Val.elems]
    cases hk : t.uintKind with
    | some w =>
      simp only []
      refine (readUints_got n w (by omega)).map fun bs xs h => ?_
      simp only [Encodable, wire, hk]
      exact ⟨⟨by omega, h.2.2⟩, h.2.1⟩
    | none =>
      simp only []
      have hct : canonical e t false = true := by rw [hk] at hc; simpa using hc
      have hel := decCore_got hv t {} hct (by intro s h; cases h)
      have hr := Got.traverse (e := e) (f := fun x => do setCurD .le; decCore e t {} x) (g := fun x => wire e t .le false x)
        (P := fun _ x => Encodable e t none x) (List.replicate n t.zero)
        (fun y hy o => by
          rw [(List.mem_replicate.mp hy).2]
          exact Got.set (fun _ => rfl) (hel.weaken fun bs v h => ⟨h.2, h.1⟩)) opt.order
      refine hr.map fun bs xs h => ?_
      simp only [Encodable, wire, hk]
      exact ⟨⟨by rw [h.1, List.length_replicate], h.2.2⟩, h.2.1⟩
  | .struct fs, opt, hc, hs => by
    simp only [canonical] at hc
    simp only [decCore, Ty.zero, zeros_fields]
    unfold decStruct
    by_cases he : e = .borsh ∧ fs.isEnum = true
    · rw [if_pos he] at hc ⊢
      refine readUint8_took.got.bind fun b1 tag o' htag => Got.ite (fun _ => Got.err _) fun hlt => ?_
      cases fs with
      | nil => simp [Fields.length] at hlt
      | cons m t0 fs =>
        simp only [canonicalVariants] at hc
        simp only [decNth, Fields.zeros]
        refine Got.bind (P := fun bs vs => ∃ rest, vs = t0.zero :: rest ∧ EncodableNth e fs tag rest ∧
          bs = wireNth e fs tag rest) ((decNth_got hv he.1 fs tag hc o').map fun bs vs h => ⟨vs, rfl, h⟩) ?_
        rintro b2 vs o2 ⟨rest, rfl, h1, rfl⟩
        refine Got.pure _ ?_
        simp only [Encodable, wire, if_pos he, List.tail_cons, EncodableNth, wireNth]
        exact ⟨⟨htag.1, h1⟩, by rw [htag.2, List.append_nil]⟩
    · rw [if_neg he] at hc ⊢
      refine (decFields_got hv fs [] hc (by simp) opt.order).map fun bs vs h => ?_
      simp only [Encodable, wire, if_neg he]
      exact h
  | .iface, opt, _, _ => by
    simp only [decCore, Ty.zero]
    exact Got.pure _ ⟨by simp only [Encodable], by simp only [wire]⟩
  | .bool, _, hc, _ | .map _ _, _, hc, _ | .plainInt, _, hc, _ | .plainUint, _, hc, _ | .other, _, hc, _ => by
    simp [canonical] at hc
termination_by structural t => t
theorem decFields_got {e : Encoding} (hv : e.valid = true) : (fs : Fields) → (sm : List (Bytes × Int)) →
    canonicalFields e fs (sm.map (·.1)) = true → (∀ p ∈ sm, 0 ≤ p.2) → (o : Order) →
    Got e o (decFields e fs sm false fs.zeros) fun bs vs =>
      EncodableFields e fs sm vs ∧ bs = wireFields e fs (sm.map (·.1)) vs
  | .nil, sm, _, _, o => by
    simp only [decFields, Fields.zeros]
    exact Got.pure _ ⟨by simp [EncodableFields], by simp [wireFields]⟩
  | .cons m t fs, sm, hc, hs, o => by
    simp only [canonicalFields] at hc
    simp only [decFields, Fields.zeros]
    by_cases hk : m.tag.skip = true
    · rw [if_pos hk] at hc ⊢
      refine (decFields_got hv fs sm hc hs o).map fun bs vs h => ?_
      simp only [EncodableFields, wireFields, if_pos hk]
      exact h
    rw [if_neg hk] at hc ⊢
    simp only [Bool.and_eq_true, Bool.not_eq_true'] at hc
    obtain ⟨⟨hx, hf⟩, hrest⟩ := hc
    rw [if_neg (by simp)]
    unfold extensionEnds
    rw [if_neg (by simp [hx])]
    have hpb : ∀ (f : Bool → DM (List Val)), ((Pure.pure false : DM Bool) >>= f) = f false := fun f => rfl
    rw [hpb]
    simp only [hx, Bool.or_false, Bool.false_or]
    by_cases hexp : m.exported = true
    · rw [if_pos hexp] at hf
      simp only [Bool.and_eq_true, Bool.not_eq_true', Bool.or_eq_true, bne_iff_ne, ne_eq, beq_iff_eq,
        Bool.eq_false_iff] at hf
      obtain ⟨⟨⟨⟨hord, hopt⟩, hcopt⟩, hsize⟩, hcan⟩ := hf
      have hord' : e = .borsh → m.tag.order = .le := fun h => hord.resolve_left (by simp [h])
      have hopt' : m.tag.option = false := by simpa using hopt
      simp only [hexp, Bool.not_true]
      rw [if_neg (by simp)]
      -- the rest of the fields, once this one is done
      have hnext : ∀ (b1 : Bytes) (x : Val) (sm' : List (Bytes × Int)), announce m t x sm = some sm' →
          (¬ absent e m t x → Encodable e t (lookupSize m.name sm) x) →
          b1 = fieldWire e m t x (wire e t m.tag.order ((announced m (sm.map (·.1))).contains m.name) x) →
          ∀ o', Got e o' (decFields e fs sm' false fs.zeros >>= fun rest => Pure.pure (x :: rest)) fun bs vs =>
            EncodableFields e (.cons m t fs) sm vs ∧ b1 ++ bs = wireFields e (.cons m t fs) (sm.map (·.1)) vs := by
        intro b1 x sm' ha hx1 hb1 o'
        have hpos : ∀ p ∈ sm', 0 ≤ p.2 := by
          intro p hp
          unfold announce at ha
          by_cases h0 : m.tag.sizeOf = []
          · rw [if_pos h0] at ha; cases ha; exact hs p hp
          · rw [if_neg h0] at ha
            split at ha
            · rename_i n hn
              cases ha
              rcases List.mem_cons.mp hp with rfl | hp
              · rcases hsize with h | h
                · exact absurd h h0
                · exact sizeof_unsigned h.1.1.1 (by simpa using h.1.1.2) hn
              · exact hs p hp
            · cases ha
        have hlook : lookupSize m.name sm' = lookupSize m.name sm := by
          refine lookup_announce ha fun h0 => ?_
          rcases hsize with h | h
          · exact absurd h h0
          · exact h.1.2
        have hnames := announce_names ha
        refine (decFields_got hv fs sm' (by rw [hnames]; exact hrest) hpos o').map fun bs vs h => ?_
        simp only [EncodableFields, wireFields, if_neg hk, ha, hexp, hlook]
        exact ⟨⟨fun _ => hx1, h.1⟩, by rw [hb1, h.2, hnames]; rfl⟩
      have hszof : (announced m (sm.map (·.1))).contains m.name = (lookupSize m.name sm).isSome := by
        rw [lookupSize_isSome]
        unfold announced
        by_cases h0 : m.tag.sizeOf = []
        · rw [if_pos h0]
        · rw [if_neg h0]
          rcases hsize with h | h
          · exact absurd h h0
          · have hne : m.name ≠ m.tag.sizeOf := fun hh => h.1.2 hh.symm
            simp [hne]
      have hnab : (e = .borsh → m.tag.coption = false) → ∀ x, ¬ absent e m t x := by
        rintro h x ⟨_, h' | ⟨h1, h2⟩⟩
        · rw [hopt'] at h'; cases h'
        · rw [h h1] at h2; cases h2
      have hfw : (e = .borsh → m.tag.coption = false) → ∀ x body, fieldWire e m t x body = body := by
        intro h x body
        unfold fieldWire
        rw [if_neg (by simp [hopt']), if_neg (by simp [hopt'])]
        rw [if_neg (fun hh => by rw [h hh.1] at hh; cases hh.2)]
        rfl
      refine Got.assume fun hbo => ?_
      cases hdl : (if e = .borsh then t.directLib else none) with
      | some p =>
        obtain ⟨l, isP⟩ := p
        have hb : e = .borsh := by
          by_cases h : e = .borsh
          · exact h
          · rw [if_neg h] at hdl; cases hdl
        rw [if_pos hb] at hdl
        simp only []
        have hco : m.tag.coption = false := by
          rcases hcopt with (h | h) | h
          · exact absurd hb h
          · simpa using h
          · rw [hdl] at h; simp at h
        have hsz : m.tag.sizeOf = [] := by
          rcases hsize with h | h
          · exact h
          · rcases h.2 with h' | h'
            · exact absurd hb h'
            · rw [hdl] at h'; simp at h'
        have hann : ∀ x, announce m t x sm = some sm := by
          intro x; unfold announce; rw [if_pos hsz]
        have hlib : canonicalLib e l = true ∧ ((t = .lib l ∧ isP = false) ∨ (t = .ptr (.lib l) ∧ isP = true)) := by
          rcases directLib_cases hdl with ⟨rfl, rfl⟩ | ⟨rfl, rfl⟩
          · simp only [canonical] at hcan; exact ⟨hcan, Or.inl ⟨rfl, rfl⟩⟩
          · simp only [canonical, Bool.and_eq_true] at hcan; exact ⟨hcan.2, Or.inr ⟨rfl, rfl⟩⟩
        refine (unmarshalLib_got (o := o) hv l hlib.1).bind fun b1 x o1 hx1 => ?_
        have ho : o = .le := hbo hb
        subst ho
        refine hnext b1 _ sm (hann _) ?_ ?_ o1
        · intro _
          rcases hlib.2 with ⟨rfl, rfl⟩ | ⟨rfl, rfl⟩
          · simp only [Encodable]; exact hx1.1
          · simp only [Encodable]; exact hx1.1
        · rw [hfw (fun _ => hco), hord' hb]
          rcases hlib.2 with ⟨rfl, rfl⟩ | ⟨rfl, rfl⟩
          · rw [wire_lib]; exact hx1.2
          · simp only [if_true]
            unfold wire
            rw [if_neg (by simp [Ty.asLib])]
            simp only []
            rw [wire_lib]; exact hx1.2
      | none =>
        simp only []
        have hopts : (fieldOpt m sm).sizeOf = lookupSize m.name sm ∧ (fieldOpt m sm).order = m.tag.order ∧
          (fieldOpt m sm).optional = m.tag.option ∧ (fieldOpt m sm).coptional = m.tag.coption := ⟨rfl, rfl, rfl, rfl⟩
        have hcore := decCore_got hv t (fieldOpt m sm) (by rw [hopts.1, ← hszof]; exact hcan)
          (fun s h => lookup_nonneg hs h)
        have hfield : Got e o (decField e t (fieldOpt m sm) t.zero (decCore e t (fieldOpt m sm) t.zero)) fun bs x =>
            (¬ absent e m t x → Encodable e t (lookupSize m.name sm) x) ∧
            bs = fieldWire e m t x (wire e t m.tag.order ((announced m (sm.map (·.1))).contains m.name) x) := by
          unfold decField
          refine Got.set (o := m.tag.order) hord' ?_
          rw [hopts.2.2.1, if_neg (by simp [hopt']), hopts.2.2.2]
          by_cases hco : e = .borsh ∧ m.tag.coption = true
          · rw [if_pos hco]
            have hpt : isPtr t = true ∧ t.directLib = none := by
              rcases hcopt with (h | h) | h
              · exact absurd hco.1 h
              · exact absurd hco.2 h
              · simpa using h
            rw [if_neg (by rw [directLib_asLib hpt.2]; simp)]
            obtain ⟨t', rfl⟩ : ∃ t', t = .ptr t' := by
              cases t <;> simp [isPtr] at hpt; exact ⟨_, rfl⟩
            refine readCOption_took.got.bind fun b1 b o1 hb => Got.ite (fun hbt => ?_) fun hbf => ?_
            · subst hbt
              refine Got.assume fun ho1 => ?_
              have : o1 = m.tag.order := by rw [ho1 hco.1, hord' hco.1]
              subst this
              have hsz : e = .borsh → lookupSize m.name sm = none := by
                intro h
                have := hcan
                rw [hszof] at this
                simp only [canonical, Bool.and_eq_true] at this
                cases hl : lookupSize m.name sm <;> simp_all
              have hnz : ∀ x, Ty.isZero (.ptr t') (.ptr (some x)) = false := by intro x; simp [Ty.isZero]
              have hval : Got e m.tag.order (decCore e (.ptr t') (fieldOpt m sm) (Ty.ptr t').zero) fun bs x =>
                  ∃ y, x = .ptr (some y) ∧ Encodable e (.ptr t') (lookupSize m.name sm) x ∧
                    bs = wire e (.ptr t') m.tag.order (lookupSize m.name sm).isSome x := by
                intro d hd1 hd2 hd3 hd4 a d' hr
                obtain ⟨bs, tail, c, g1, g2, g3, g4⟩ := hcore d hd1 hd2 hd3 hd4 a d' hr
                refine ⟨bs, tail, c, g1, g2, g3, ?_⟩
                have : ∃ y, a = .ptr (some y) := ?_
                · obtain ⟨y, hy⟩ := this
                  exact ⟨y, hy, g4⟩
                simp only [decCore] at hr
                rw [M.bind_apply] at hr
                split at hr
                · simp only [M.pure_apply, Prod.mk.injEq, Res.ok.injEq] at hr
                  exact ⟨_, hr.1.symm⟩
                · simp at hr
                · simp at hr
              refine hval.weaken fun bs x h => ?_
              obtain ⟨y, rfl, h1, rfl⟩ := h
              refine ⟨fun _ => h1, ?_⟩
              unfold fieldWire
              rw [if_neg (by simp [hopt']), if_neg (by simp [hopt']), if_pos hco, if_neg (by simp [hnz]), hb, hszof]
              rfl
            · rw [absentVal_zero]
              refine Got.pure _ ?_
              have hz : Ty.isZero (.ptr t') (Ty.ptr t').zero = true := by simp [Ty.isZero, Ty.zero]
              refine ⟨fun h => absurd ⟨hz, Or.inr hco⟩ h, ?_⟩
              unfold fieldWire
              rw [if_neg (by simp [hopt']), if_neg (by simp [hopt']), if_pos hco, if_pos hz, hb]
              have : b = false := by simpa using hbf
              rw [this]
              simp
          · rw [if_neg hco]
            have hco' : e = .borsh → m.tag.coption = false := fun h => by
              cases hh : m.tag.coption with
              | false => rfl
              | true => exact absurd ⟨h, hh⟩ hco
            refine hcore.weaken fun bs x h => ⟨fun _ => h.1, ?_⟩
            rw [hfw hco', hszof]; exact h.2
        refine hfield.bind fun b1 x o1 hx1 => ?_
        refine recordSize_got.bind fun b2 sm' o2 hsm => ?_
        obtain ⟨rfl, ha⟩ := hsm
        refine (hnext b1 x sm' ha hx1.1 hx1.2 o2).weaken fun bs vs h => ?_
        simpa using h
    · rw [if_neg hexp] at hf
      have hexp' : m.exported = false := by simpa using hexp
      have hsz : m.tag.sizeOf = [] := by simpa using hf
      simp only [hexp', Bool.not_false]
      rw [if_pos (by simp)]
      have hnames : announced m (sm.map (·.1)) = sm.map (·.1) := by unfold announced; rw [if_pos hsz]
      rw [hnames] at hrest
      refine (decFields_got hv fs sm hrest hs o).map fun bs vs h => ?_
      have ha : announce m t t.zero sm = some sm := by unfold announce; rw [if_pos hsz]
      unfold EncodableFields wireFields
      rw [if_neg hk, if_neg hk, ha, hnames, hexp']
      exact ⟨⟨fun h' => absurd h' (by decide), h.1⟩, h.2⟩
termination_by structural fs => fs
theorem decNth_got {e : Encoding} (hv : e.valid = true) (hb : e = .borsh) : (fs : Fields) → (i : Nat) →
    canonicalPayloads e fs = true → (o : Order) →
    Got e o (decNth e fs i fs.zeros) fun bs vs => EncodableNth e fs i vs ∧ bs = wireNth e fs i vs
  | .nil, i, _, o => by
    simp only [decNth, Fields.zeros]
    exact Got.panic
  | .cons m t fs, 0, hc, o => by
    simp only [canonicalPayloads, Bool.and_eq_true] at hc
    simp only [decNth, Fields.zeros]
    have hcore := decCore_got hv t {} hc.1.2 (by intro s h; cases h)
    have hval : Got e .le (decCore e t {} t.zero) fun bs x => payloadOk t x ∧ Encodable e t none x ∧
        bs = wire e t .le false x := by
      intro d hd1 hd2 hd3 hd4 a d' hr
      obtain ⟨bs, tail, c, g1, g2, g3, g4⟩ := hcore d hd1 hd2 hd3 hd4 a d' hr
      refine ⟨bs, tail, c, g1, g2, g3, ?_, g4⟩
      cases t <;> simp only [payloadOk, payloadType] at hc ⊢ <;> try exact hc.1.1
      refine ⟨hc.1.1, ?_⟩
      simp only [decCore] at hr
      rw [M.bind_apply] at hr
      split at hr
      · simp only [M.pure_apply, Prod.mk.injEq, Res.ok.injEq] at hr
        exact ⟨_, hr.1.symm⟩
      · simp at hr
      · simp at hr
    refine Got.set (o := .le) (fun _ => rfl) (hval.map fun bs x h => ?_)
    simp only [EncodableNth, wireNth]
    exact ⟨⟨h.1, h.2.1⟩, h.2.2⟩
  | .cons m t fs, i + 1, hc, o => by
    simp only [canonicalPayloads, Bool.and_eq_true] at hc
    simp only [decNth, Fields.zeros]
    refine (decNth_got hv hb fs i hc.2 o).map fun bs vs h => ?_
    simp only [EncodableNth, wireNth]
    exact h
termination_by structural fs => fs
end

theorem decode_got {e : Encoding} (hv : e.valid = true) (t : Ty) (hc : canonical e t false = true) :
    ∀ (d : Dec), d.Ok → d.enc = e → ∀ v d', decode t t.zero d = (.ok v, d') →
      Encodable e t none v ∧ ∃ tail c, d.rest = wire e t .le false v ++ tail ∧
        d' = d.to (wire e t .le false v).length c := by
  intro d ho he v d' hr
  unfold decode at hr
  rw [M.bind_apply, M.get_apply] at hr
  simp only [] at hr
  rw [if_neg (by rw [he]; rintro rfl; cases hv), he] at hr
  simp only [setCurD, M.bind_apply, M.modify_apply] at hr
  obtain ⟨bs, tail, c, h1, h2, -, h3, rfl⟩ := decCore_got hv t {} hc (by intro s h; cases h)
    { d with cur := some .le } ho he rfl (fun _ => rfl) v d' hr
  exact ⟨h3, tail, some c, h1, h2⟩

end Verif
