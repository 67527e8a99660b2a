import Verif.Spec.InFields
import Verif.Props.Containers
/-!
# C85: structs are decoded field by field
-/
namespace Verif.Props
open Spec

/-- Every decoder inside its data has the form `decAt`. -/
theorem exists_decAt {e : Encoding} {N : Nat} {d : Dec} (hg : Good e N d) : ∃ pre, d = decAt e d.cur pre d.rest := by
  obtain ⟨ho, he, -⟩ := hg
  refine ⟨d.data.take d.pos.toNat, ?_⟩
  obtain ⟨data, pos, cur, enc⟩ := d
  obtain ⟨h0, h1⟩ := ho
  simp only at h0 h1 he
  subst he
  simp only [decAt, Dec.rest, List.take_append_drop, List.length_take, Dec.mk.injEq, and_self, and_true, true_and]
  omega

theorem optionFlag_one (e : Encoding) (h : e ≠ .bin) (f : Bytes) (b : Bool) :
    OptionFlag e f b ↔ ∃ c, f = [c] ∧ b = (c != 0) := by
  unfold OptionFlag
  rw [if_neg h]
  constructor
  · rintro ⟨h1, h2⟩
    match f, h1 with
    | [c], _ =>
      refine ⟨c, rfl, ?_⟩
      simp only [List.mem_singleton, forall_eq] at h2
      by_cases hc : c = 0
      · rw [h2.2 hc, hc]; rfl
      · cases b
        · exact absurd (h2.1 rfl) hc
        · simp [hc]
  · rintro ⟨c, rfl, rfl⟩
    simp

theorem leValue_zero : ∀ f : Bytes, leValue f = 0 ↔ ∀ b ∈ f, b = 0
  | [] => by simp [leValue]
  | b :: f => by
    have hb : b.toNat = 0 ↔ b = 0 := by
      constructor
      · intro h
        apply UInt8.toNat.inj
        rw [h]; rfl
      · rintro rfl; rfl
    simp only [leValue, List.mem_cons, forall_eq_or_imp, ← leValue_zero f, ← hb]
    omega

theorem optionFlag_four (f : Bytes) (b : Bool) :
    OptionFlag .bin f b ↔ ∃ n, (n < 2 ^ 32 ∧ f = fixed .le 4 n) ∧ b = (n != 0) := by
  unfold OptionFlag
  rw [if_pos rfl, ← leValue_zero]
  constructor
  · rintro ⟨h1, h2⟩
    have hlt : leValue f < 2 ^ 32 := by
      have := leValue_lt f
      rw [h1] at this
      exact this
    refine ⟨leValue f, ⟨hlt, (fixed_leValue (k := 4) hlt).2 ⟨h1, rfl⟩⟩, ?_⟩
    cases b
    · simp [h2.1 rfl]
    · have : leValue f ≠ 0 := fun h => by cases h2.2 h
      simp [this]
  · rintro ⟨n, ⟨h1, h2⟩, rfl⟩
    obtain ⟨h3, h4⟩ := (fixed_leValue (k := 4) h1).1 h2
    refine ⟨h3, ?_⟩
    rw [h4]
    simp

theorem readFlag_cases {e : Encoding} (he : e.valid = true) (cur : Option Order) (pre unread : Bytes) (b : Bool) (d' : Dec) :
    readFlag e (decAt e cur pre unread) = (.ok b, d') ↔
      ∃ f rest, unread = f ++ rest ∧ OptionFlag e f b ∧ d' = decAt e cur (pre ++ f) rest := by
  apply decAt_cases
  · cases e with
    | other => cases he
    | bin =>
      exact (readUint32_took .le).bind fun p n hn => Took.pure _ (by
        rw [List.append_nil, optionFlag_four]; exact ⟨n, hn, rfl⟩)
    | borsh =>
      exact readByte_took.bind fun p n hn => Took.pure _ (by
        rw [List.append_nil, optionFlag_one _ (by decide)]; exact ⟨n, hn, rfl⟩)
    | compactU16 =>
      exact readByte_took.bind fun p n hn => Took.pure _ (by
        rw [List.append_nil, optionFlag_one _ (by decide)]; exact ⟨n, hn, rfl⟩)
  · intro f b h
    cases e with
    | other => cases he
    | bin =>
      obtain ⟨n, ⟨h1, rfl⟩, rfl⟩ := (optionFlag_four _ _).1 h
      rw [fixed_eq]
      exact (readUint32_reads .bin .le n h1).bind_pure
    | borsh =>
      obtain ⟨c, rfl, rfl⟩ := (optionFlag_one _ (by decide) _ _).1 h
      exact readOption_reads .borsh c
    | compactU16 =>
      obtain ⟨c, rfl, rfl⟩ := (optionFlag_one _ (by decide) _ _).1 h
      exact (readByte_reads .compactU16 c).bind_pure

theorem cflag_bytes (b : Bool) : cflag b = [if b then 1 else 0, 0, 0, 0] := by cases b <;> decide +kernel

theorem readCOption_cases {e : Encoding} (cur : Option Order) (pre unread : Bytes) (b : Bool) (d' : Dec) :
    readCOption (decAt e cur pre unread) = (.ok b, d') ↔
      ∃ f rest, unread = f ++ rest ∧ COptionFlag f b ∧ d' = decAt e cur (pre ++ f) rest := by
  apply decAt_cases
  · exact readCOption_took.weaken fun p n h => by rw [h]; exact cflag_bytes n
  · intro f b h
    rw [show f = cflag b from h.trans (cflag_bytes b).symm]
    exact readCOption_r b

theorem absentVal_gone : (t : Ty) → (old x : Val) → (x = absentVal t old ↔ Gone t old x)
  | .ptr (.ptr t), .ptr (some y), x => by
    rw [absentVal]
    constructor
    · rintro rfl
      exact .through ((absentVal_gone (.ptr t) y _).1 rfl)
    · intro h
      cases h with
      | zero h => exact absurd rfl (h t y rfl)
      | through h => rw [(absentVal_gone (.ptr t) y _).2 h]
  | t, old, x => by
    by_cases hh : ∃ t' y, t = .ptr (.ptr t') ∧ old = .ptr (some y)
    · obtain ⟨t', y, rfl, rfl⟩ := hh
      rw [absentVal]
      constructor
      · rintro rfl
        exact .through ((absentVal_gone (.ptr t') y _).1 rfl)
      · intro h
        cases h with
        | zero h => exact absurd rfl (h t' y rfl)
        | through h => rw [(absentVal_gone (.ptr t') y _).2 h]
    · have h0 : absentVal t old = t.zero := by
        unfold absentVal
        split
        · exact absurd ⟨_, _, rfl, rfl⟩ hh
        · rfl
      rw [h0]
      constructor
      · rintro rfl
        exact .zero fun t' y h1 h2 => hh ⟨t', y, h1, h2⟩
      · intro h
        cases h with
        | zero h => rfl
        | through h => exact absurd ⟨_, _, rfl, rfl⟩ hh

theorem absentBase_hollow : (t : Ty) → (x : Val) → (x = absentBase t ↔ Hollow t x) := by
  intro t x
  constructor
  · rintro rfl
    induction t using absentBase.induct with
    | case1 t ih => rw [absentBase]; exact .ptr ih
    | case2 t h =>
      have : absentBase t = t.zero := by
        unfold absentBase
        split
        · exact absurd rfl (h _)
        · rfl
      rw [this]
      exact .base h
  · intro h
    induction h with
    | base h =>
      unfold absentBase
      split
      · exact absurd rfl (h _)
      · rfl
    | ptr h ih => rw [absentBase, ← ih]

theorem extensionEnds_eq {e : Encoding} {N : Nat} {d : Dec} (hg : Good e N d) (m : FieldMeta) :
    extensionEnds m d = (.ok (decide (m.tag.binExt = true ∧ left d = 0)), d) := by
  have ho := hg.1
  unfold extensionEnds
  split
  · rename_i hb
    unfold noBytesLeft
    have hr : restM d = (.ok (d.data.drop d.pos.toNat), d) := by
      unfold restM
      rw [if_pos (show 0 ≤ d.pos ∧ d.pos ≤ (d.data.length : Int) from ho)]
    rw [M.bind_ok hr]
    simp only [M.pure_apply, List.length_drop, hb, true_and, Prod.mk.injEq, Res.ok.injEq, and_true]
    obtain ⟨h1, h2⟩ := ho
    unfold left
    rw [Bool.eq_iff_iff, beq_iff_eq, decide_eq_true_iff]
    omega
  · rename_i hb
    simp [hb]

theorem decCore_opt (e : Encoding) : (t : Ty) → (o o' : Opt) → (old : Val) → o.sizeOf = o'.sizeOf → o.order = o'.order →
    decCore e t o old = decCore e t o' old
  | .ptr t, o, o', old, h1, h2 => by
    simp only [decCore]
    rw [decCore_opt e t o o' _ h1 h2]
  | .slice t, o, o', old, h1, h2 => by simp only [decCore, h1]
  | .lib l, o, o', old, h1, h2 => by simp only [decCore]
  | .array n t, o, o', old, h1, h2 => by simp only [decCore]
  | .map k t, o, o', old, h1, h2 => by simp only [decCore]
  | .struct fs, o, o', old, h1, h2 => by simp only [decCore]
  | .iface, o, o', old, h1, h2 => by simp only [decCore]
  | .plainInt, o, o', old, h1, h2 => by simp only [decCore]
  | .plainUint, o, o', old, h1, h2 => by simp only [decCore]
  | .other, o, o', old, h1, h2 => by simp only [decCore]
  | .bool, o, o', old, h1, h2 => by simp only [decCore, decPlain, h2]
  | .uint _ _, o, o', old, h1, h2 => by simp only [decCore, decPlain, h2]
  | .int _ _, o, o', old, h1, h2 => by simp only [decCore, decPlain, h2]
  | .borshEnum, o, o', old, h1, h2 => by simp only [decCore, decPlain, h2]
  | .f32, o, o', old, h1, h2 => by simp only [decCore, decPlain, h2]
  | .f64, o, o', old, h1, h2 => by simp only [decCore, decPlain, h2]
  | .str, o, o', old, h1, h2 => by simp only [decCore, decPlain, h2]

theorem ok_inj {α σ : Type} {a b : α} {s s' : σ} : ((Res.ok a, s) : Res α × σ) = (.ok b, s') ↔ b = a ∧ s' = s := by
  simp only [Prod.mk.injEq, Res.ok.injEq]
  exact ⟨fun h => ⟨h.1.symm, h.2.symm⟩, fun h => ⟨h.1.symm, h.2.symm⟩⟩

/-- The flags, as the decoder reads them. -/
theorem decField_flags {e : Encoding} (he : e.valid = true) (m : FieldMeta) (t : Ty) (old : Val) (core : DM Val)
    (hle : m.tag.order = .le) (h1 : m.tag.option = true → t.asLib = none)
    (h2 : e = .borsh → m.tag.coption = true → t.asLib = none ∧ (m.tag.option = true → t.baseLib = false))
    (cur : Option Order) (pre unread : Bytes) (x : Val) (d' : Dec) :
    decField e t (fieldOpt m []) old core (decAt e cur pre unread) = (.ok x, d') ↔
      ∃ f rest p, unread = f ++ rest ∧ Flags e m.tag f p ∧
        match p with
        | .here => core (decAt e (some .le) (pre ++ f) rest) = (.ok x, d')
        | .gone => Gone t old x ∧ d' = decAt e (some .le) (pre ++ f) rest
        | .hollow => Hollow t x ∧ d' = decAt e (some .le) (pre ++ f) rest := by
  have hset : decField e t (fieldOpt m []) old core (decAt e cur pre unread) =
      (if m.tag.option = true then
        if t.asLib.isSome = true then M.panic
        else do
          let present ← readFlag e
          if present then
            if e = .borsh ∧ m.tag.coption = true then
              if t.baseLib then M.panic
              else do
                let present ← readCOption
                if present then core else pure (absentBase t)
            else core
          else pure (absentVal t old)
      else if e = .borsh ∧ m.tag.coption = true then
        if t.asLib.isSome = true then M.panic
        else do
          let present ← readCOption
          if present then core else pure (absentVal t old)
      else core) (decAt e (some .le) pre unread) := by
    unfold decField
    rw [M.bind_apply]
    simp only [fieldOpt, setCurD, M.modify_apply, hle]
    rfl
  rw [hset]
  by_cases hop : m.tag.option = true
  · rw [if_pos hop, if_neg (by rw [h1 hop]; simp), bind_ok_iff]
    by_cases hco : e = .borsh ∧ m.tag.coption = true
    · simp only [if_pos hco, if_neg (show ¬ t.baseLib = true by rw [(h2 hco.1 hco.2).2 hop]; simp)]
      constructor
      · rintro ⟨b, d1, hb, hr⟩
        obtain ⟨f, rest, rfl, hf, rfl⟩ := (readFlag_cases he _ _ _ _ _).1 hb
        cases b with
        | false =>
          simp only [Bool.false_eq_true, if_false, M.pure_apply, ok_inj] at hr
          exact ⟨f, rest, .gone, rfl, .gone hop hf, (absentVal_gone _ _ _).1 hr.1, hr.2⟩
        | true =>
          simp only [if_true] at hr
          rw [bind_ok_iff] at hr
          obtain ⟨b, d2, hb2, hr⟩ := hr
          obtain ⟨g, rest, rfl, hg, rfl⟩ := (readCOption_cases _ _ _ _ _).1 hb2
          cases b with
          | false =>
            simp only [Bool.false_eq_true, if_false, M.pure_apply, ok_inj] at hr
            refine ⟨f ++ g, rest, .hollow, by simp, .hollow hop hco.1 hco.2 hf hg, (absentBase_hollow _ _).1 hr.1, ?_⟩
            rw [hr.2, List.append_assoc]
          | true =>
            simp only [if_true, List.append_assoc] at hr
            exact ⟨f ++ g, rest, .here, by simp, .both hop hco.1 hco.2 hf hg, hr⟩
      · rintro ⟨f, rest, p, rfl, hf, hp⟩
        cases hf with
        | none h => rw [hop] at h; cases h
        | here _ h => exact absurd hco h
        | cgone h => rw [hop] at h; cases h
        | chere h => rw [hop] at h; cases h
        | gone _ hf =>
          refine ⟨false, _, (readFlag_cases he _ _ _ _ _).2 ⟨f, rest, rfl, hf, rfl⟩, ?_⟩
          simp only [Bool.false_eq_true, if_false, M.pure_apply, ok_inj]
          exact ⟨(absentVal_gone _ _ _).2 hp.1, hp.2⟩
        | @hollow f g _ _ _ hf hg =>
          refine ⟨true, _, (readFlag_cases he _ _ _ _ _).2 ⟨f, g ++ rest, by simp, hf, rfl⟩, ?_⟩
          simp only [if_true]
          rw [bind_ok_iff]
          refine ⟨false, _, (readCOption_cases _ _ _ _ _).2 ⟨g, rest, rfl, hg, rfl⟩, ?_⟩
          simp only [Bool.false_eq_true, if_false, M.pure_apply, ok_inj, List.append_assoc]
          exact ⟨(absentBase_hollow _ _).2 hp.1, hp.2⟩
        | @both f g _ _ _ hf hg =>
          refine ⟨true, _, (readFlag_cases he _ _ _ _ _).2 ⟨f, g ++ rest, by simp, hf, rfl⟩, ?_⟩
          simp only [if_true]
          rw [bind_ok_iff]
          refine ⟨true, _, (readCOption_cases _ _ _ _ _).2 ⟨g, rest, rfl, hg, rfl⟩, ?_⟩
          simp only [if_true, List.append_assoc]
          exact hp
    · simp only [if_neg hco]
      constructor
      · rintro ⟨b, d1, hb, hr⟩
        obtain ⟨f, rest, rfl, hf, rfl⟩ := (readFlag_cases he _ _ _ _ _).1 hb
        cases b with
        | false =>
          simp only [Bool.false_eq_true, if_false, M.pure_apply, ok_inj] at hr
          exact ⟨f, rest, .gone, rfl, .gone hop hf, (absentVal_gone _ _ _).1 hr.1, hr.2⟩
        | true =>
          simp only [if_true] at hr
          exact ⟨f, rest, .here, rfl, .here hop hco hf, hr⟩
      · rintro ⟨f, rest, p, rfl, hf, hp⟩
        cases hf with
        | none h => rw [hop] at h; cases h
        | here _ _ hf =>
          refine ⟨true, _, (readFlag_cases he _ _ _ _ _).2 ⟨f, rest, rfl, hf, rfl⟩, ?_⟩
          simp only [if_true]
          exact hp
        | cgone h => rw [hop] at h; cases h
        | chere h => rw [hop] at h; cases h
        | gone _ hf =>
          refine ⟨false, _, (readFlag_cases he _ _ _ _ _).2 ⟨f, rest, rfl, hf, rfl⟩, ?_⟩
          simp only [Bool.false_eq_true, if_false, M.pure_apply, ok_inj]
          exact ⟨(absentVal_gone _ _ _).2 hp.1, hp.2⟩
        | hollow _ h3 h4 => exact absurd ⟨h3, h4⟩ hco
        | both _ h3 h4 => exact absurd ⟨h3, h4⟩ hco
  · have hof : m.tag.option = false := by simpa using hop
    rw [if_neg hop]
    by_cases hco : e = .borsh ∧ m.tag.coption = true
    · rw [if_pos hco, if_neg (by rw [(h2 hco.1 hco.2).1]; simp), bind_ok_iff]
      constructor
      · rintro ⟨b, d1, hb, hr⟩
        obtain ⟨f, rest, rfl, hf, rfl⟩ := (readCOption_cases _ _ _ _ _).1 hb
        cases b with
        | false =>
          simp only [Bool.false_eq_true, if_false, M.pure_apply, ok_inj] at hr
          exact ⟨f, rest, .gone, rfl, .cgone hof hco.1 hco.2 hf, (absentVal_gone _ _ _).1 hr.1, hr.2⟩
        | true =>
          simp only [if_true] at hr
          exact ⟨f, rest, .here, rfl, .chere hof hco.1 hco.2 hf, hr⟩
      · rintro ⟨f, rest, p, rfl, hf, hp⟩
        cases hf with
        | none _ h => exact absurd hco h
        | here h => exact absurd h hop
        | gone h => exact absurd h hop
        | hollow h => exact absurd h hop
        | both h => exact absurd h hop
        | chere _ _ _ hf =>
          refine ⟨true, _, (readCOption_cases _ _ _ _ _).2 ⟨f, rest, rfl, hf, rfl⟩, ?_⟩
          simp only [if_true]
          exact hp
        | cgone _ _ _ hf =>
          refine ⟨false, _, (readCOption_cases _ _ _ _ _).2 ⟨f, rest, rfl, hf, rfl⟩, ?_⟩
          simp only [Bool.false_eq_true, if_false, M.pure_apply, ok_inj]
          exact ⟨(absentVal_gone _ _ _).2 hp.1, hp.2⟩
    · rw [if_neg hco]
      constructor
      · intro h
        exact ⟨[], unread, .here, rfl, .none hof hco, by simpa using h⟩
      · rintro ⟨f, rest, p, rfl, hf, hp⟩
        cases hf with
        | none => simpa using hp
        | here h => exact absurd h hop
        | gone h => exact absurd h hop
        | hollow h => exact absurd h hop
        | both h => exact absurd h hop
        | cgone _ h3 h4 => exact absurd ⟨h3, h4⟩ hco
        | chere _ h3 h4 => exact absurd ⟨h3, h4⟩ hco

/-- One field, flags and value, as the decoder reads it. -/
theorem decField_cases {e : Encoding} (he : e.valid = true) (m : FieldMeta) (t : Ty) (old : Val)
    (hle : m.tag.order = .le) (h1 : m.tag.option = true → t.asLib = none)
    (h2 : e = .borsh → m.tag.coption = true → t.asLib = none ∧ (m.tag.option = true → t.baseLib = false))
    (cur : Option Order) (pre unread : Bytes) (x : Val) (d' : Dec) :
    decField e t (fieldOpt m []) old (decCore e t (fieldOpt m []) old) (decAt e cur pre unread) = (.ok x, d') ↔
      FieldInTurn e m.tag t old x (decAt e cur pre unread) d' := by
  rw [decField_flags he m t old _ hle h1 h2, decCore_opt e t (fieldOpt m []) {} old (by simp [fieldOpt, lookupSize]) hle]
  constructor
  · rintro ⟨f, rest, p, rfl, hf, hp⟩
    cases p with
    | here => exact .here hf (by rw [decode_core he]; exact hp)
    | gone => obtain ⟨h, rfl⟩ := hp; exact .gone hf h
    | hollow => obtain ⟨h, rfl⟩ := hp; exact .hollow hf h
  · intro h
    generalize hd : decAt e cur pre unread = d at h
    have hsplit : ∀ {f rest cur' pre'}, decAt e cur pre unread = decAt e cur' pre' (f ++ rest) → pre = pre' ∧ unread = f ++ rest := by
      intro f rest cur' pre' h
      simp only [decAt, Dec.mk.injEq] at h
      exact List.append_inj h.1 (by have := h.2.1; omega)
    cases h with
    | here hf h =>
      obtain ⟨rfl, rfl⟩ := hsplit hd
      rw [decode_core he] at h
      exact ⟨_, _, .here, rfl, hf, h⟩
    | gone hf h =>
      obtain ⟨rfl, rfl⟩ := hsplit hd
      exact ⟨_, _, .gone, rfl, hf, h, rfl⟩
    | hollow hf h =>
      obtain ⟨rfl, rfl⟩ := hsplit hd
      exact ⟨_, _, .hollow, rfl, hf, h, rfl⟩

theorem good_to {e : Encoding} {N : Nat} {d : Dec} (hg : Good e N d) {k : Nat} (c : Option Order) (hk : k ≤ d.rest.length) :
    Good e N (d.to k c) := by
  refine ⟨Dec.to_ok (d.adv_ok hg.1 hk), hg.2.1, ?_⟩
  rw [Dec.to_rest, Dec.adv_rest hg.1]
  have := hg.2.2
  simp only [List.length_drop]
  omega

theorem directLib_some {t : Ty} {l : Lib} {p : Bool} (h : t.directLib = some (l, p)) :
    t = (if p then .ptr (.lib l) else .lib l) := by
  unfold Ty.directLib at h
  split at h
  · cases h; rfl
  · rename_i t'
    cases t' <;> simp [Ty.asLib] at h
    obtain ⟨rfl, rfl⟩ := h
    rfl
  · cases h

theorem directLib_none {t : Ty} : t.directLib = none ↔ ∀ l, t ≠ .lib l ∧ t ≠ .ptr (.lib l) := by
  constructor
  · intro h l
    constructor <;> rintro rfl <;> simp [Ty.directLib, Ty.asLib] at h
  · intro h
    cases hd : t.directLib with
    | none => rfl
    | some p =>
      obtain ⟨l, p⟩ := p
      have := directLib_some hd
      cases p
      · exact absurd this (h l).1
      · exact absurd this (h l).2

theorem decFields_inTurn {e : Encoding} (he : e.valid = true) {N : Nat} : (fs : Fields) → (seen : Bool) → (olds : List Val) →
    decodableFields e fs [] seen = true → plainTags fs = true → ShapedFields N fs olds → (d : Dec) → Good e N d → d.cur ≠ none →
    ∀ xs d', decFields e fs [] seen olds d = (.ok xs, d') ↔ FieldsInTurn e fs olds xs d d'
  | .nil, seen, olds, _, _, hs, d, hg, hc, xs, d' => by
    cases olds <;> simp only [ShapedFields] at hs
    simp only [decFields, M.pure_apply, ok_inj]
    constructor
    · rintro ⟨rfl, rfl⟩; exact .nil _
    · intro h; cases h; exact ⟨rfl, rfl⟩
  | .cons m t fs, seen, [], _, _, hs, d, hg, hc, xs, d' => by simp only [ShapedFields] at hs
  | .cons m t fs, seen, old :: olds, hd, hp, hs, d, hg, hc, xs, d' => by
    simp only [ShapedFields] at hs
    simp only [plainTags, Bool.and_eq_true, beq_iff_eq] at hp
    obtain ⟨⟨hle, hsz⟩, hp⟩ := hp
    simp only [decodableFields] at hd
    have keep : ∀ seen', decodableFields e fs [] seen' = true → LeftAlone m d →
        ((decFields e fs [] seen' olds >>= fun rest => pure (old :: rest)) d = (.ok xs, d') ↔
          FieldsInTurn e (.cons m t fs) (old :: olds) xs d d') := by
      intro seen' hd' hl
      rw [bind_ok_iff]
      constructor
      · rintro ⟨rest, d1, h1, h2⟩
        simp only [M.pure_apply, ok_inj] at h2
        obtain ⟨rfl, rfl⟩ := h2
        exact .left hl ((decFields_inTurn he fs seen' olds hd' hp hs.2 d hg hc _ _).1 h1)
      · intro h
        cases h with
        | left _ h => exact ⟨_, _, (decFields_inTurn he fs seen' olds hd' hp hs.2 d hg hc _ _).2 h, rfl⟩
        | own h => exact absurd hl h
        | ownPtr h => exact absurd hl h
        | field h => exact absurd hl h
    simp only [decFields]
    by_cases hsk : m.tag.skip = true
    · rw [if_pos hsk] at hd ⊢
      exact keep seen hd (.inl hsk)
    rw [if_neg hsk] at hd ⊢
    simp only [Bool.and_eq_true] at hd
    obtain ⟨⟨hse, hf⟩, hrest⟩ := hd
    rw [if_neg (by
      intro h
      rw [Bool.and_eq_true, Bool.not_eq_true'] at h
      rw [h.1, h.2] at hse
      simp at hse)]
    rw [if_neg (by simp [hsz])] at hrest
    rw [M.bind_ok (extensionEnds_eq hg m)]
    by_cases hl : LeftAlone m d
    · have : (decide (m.tag.binExt = true ∧ left d = 0) || !m.exported) = true := by
        rcases hl with h | h | h
        · exact absurd h hsk
        · simp [h]
        · simp [h]
      rw [if_pos this]
      exact keep _ hrest hl
    · have hn : ¬ (decide (m.tag.binExt = true ∧ left d = 0) || !m.exported) = true := by
        intro h
        apply hl
        simp only [Bool.or_eq_true, decide_eq_true_iff, Bool.not_eq_true'] at h
        rcases h with h | h
        · exact .inr (.inr h)
        · exact .inr (.inl h)
      rw [if_neg hn]
      have hex : m.exported = true := by
        cases h : m.exported
        · rw [h] at hn; simp at hn
        · rfl
      cases hdl : (if e = .borsh then t.directLib else none) with
      | some p =>
        obtain ⟨l, isPtr⟩ := p
        have heb : e = .borsh := by
          by_cases h : e = .borsh
          · exact h
          · rw [if_neg h] at hdl; cases hdl
        rw [if_pos heb] at hdl
        have ht := directLib_some hdl
        simp only []
        have next : ∀ {x d1}, unmarshalLib l l.zero d = (.ok x, d1) → Good e N d1 ∧ d1.cur ≠ none := by
          intro x d1 h
          obtain ⟨res, k, c, hr, hcn, hk, -⟩ := unmarshalLib_safe he l l.zero (lib_zero_shaped N l) d hg.1 hg.2.1 hc hg.2.2
          rw [h] at hr
          simp only [Prod.mk.injEq] at hr
          rw [hr.2]
          exact ⟨good_to hg c hk, hcn⟩
        rw [bind_ok_iff]
        constructor
        · rintro ⟨x, d1, h1, h2⟩
          rw [bind_ok_iff] at h2
          obtain ⟨rest, d2, h2, h3⟩ := h2
          simp only [M.pure_apply, ok_inj] at h3
          obtain ⟨rfl, rfl⟩ := h3
          obtain ⟨hg1, hc1⟩ := next h1
          have := (decFields_inTurn he fs _ olds hrest hp hs.2 d1 hg1 hc1 _ _).1 h2
          subst ht
          cases isPtr
          · exact .own hl heb h1 this
          · exact .ownPtr hl heb h1 this
        · intro h
          cases h with
          | left h => exact absurd h hl
          | @own _ l' _ _ _ x xs _ d1 _ _ _ h1 h2 =>
            cases isPtr
            · simp only [Bool.false_eq_true, if_false, Ty.lib.injEq] at ht
              subst ht
              obtain ⟨hg1, hc1⟩ := next h1
              refine ⟨x, d1, h1, ?_⟩
              rw [bind_ok_iff]
              exact ⟨xs, d', (decFields_inTurn he fs _ olds hrest hp hs.2 d1 hg1 hc1 _ _).2 h2, rfl⟩
            · cases ht
          | @ownPtr _ l' _ _ _ x xs _ d1 _ _ _ h1 h2 =>
            cases isPtr
            · cases ht
            · simp only [if_true, Ty.ptr.injEq, Ty.lib.injEq] at ht
              subst ht
              obtain ⟨hg1, hc1⟩ := next h1
              refine ⟨x, d1, h1, ?_⟩
              rw [bind_ok_iff]
              exact ⟨xs, d', (decFields_inTurn he fs _ olds hrest hp hs.2 d1 hg1 hc1 _ _).2 h2, rfl⟩
          | field _ h =>
            have := directLib_none.2 (h heb)
            rw [hdl] at this
            cases this
      | none =>
        simp only []
        have hnl : e = .borsh → ∀ l, t ≠ .lib l ∧ t ≠ .ptr (.lib l) := by
          intro heb
          rw [if_pos heb] at hdl
          exact directLib_none.1 hdl
        have hf2 : ((!m.tag.option || t.asLib.isNone) &&
         (!(e == .borsh && m.tag.coption) || (t.asLib.isNone && (!m.tag.option || !t.baseLib))) &&
         (m.tag.sizeOf == [] || isInteger t.kind) &&
         decodable e t (([] : List Bytes).contains m.name)) = true := by
          rw [hex] at hf
          simp only [Bool.not_true, Bool.false_or, Bool.or_eq_true] at hf
          rcases hf with hf | hf
          · simp only [Bool.and_eq_true, beq_iff_eq] at hf
            rw [if_pos hf.1] at hdl
            rw [hdl] at hf
            simp at hf
          · exact hf
        simp only [Bool.and_eq_true] at hf2
        obtain ⟨⟨⟨h1, h2⟩, -⟩, h4⟩ := hf2
        have h4 : decodable e t false = true := by simpa using h4
        have h1 : m.tag.option = true → t.asLib = none := by
          intro ho
          rw [ho] at h1
          simpa using h1
        have h2 : e = .borsh → m.tag.coption = true → t.asLib = none ∧ (m.tag.option = true → t.baseLib = false) := by
          intro he ho
          rw [ho, he] at h2
          simp only [beq_self_eq_true, Bool.and_self, Bool.not_true, Bool.false_or, Bool.and_eq_true] at h2
          refine ⟨by simpa using h2.1, fun hop => ?_⟩
          have := h2.2
          rw [hop] at this
          simpa using this
        have hcore := decCore_safe he t false (fieldOpt m []) old h4 hs.1 (by simp [fieldOpt, lookupSize])
        have hsafe := decField_safe he t (fieldOpt m []) old _ hs.1 (show (fieldOpt m []).optional = true → _ from h1)
          (show e = .borsh → (fieldOpt m []).coptional = true → _ from h2) hcore
        have next : ∀ {x d1}, decField e t (fieldOpt m []) old (decCore e t (fieldOpt m []) old) d = (.ok x, d1) →
            Good e N d1 ∧ d1.cur ≠ none := by
          intro x d1 h
          obtain ⟨res, k, c, hr, hcn, hk, -⟩ := hsafe d hg.1 hg.2.1 hc hg.2.2
          rw [h] at hr
          simp only [Prod.mk.injEq] at hr
          rw [hr.2]
          exact ⟨good_to hg c hk, hcn⟩
        have hiff : ∀ x d1, decField e t (fieldOpt m []) old (decCore e t (fieldOpt m []) old) d = (.ok x, d1) ↔
            FieldInTurn e m.tag t old x d d1 := by
          intro x d1
          obtain ⟨pre, hpre⟩ := exists_decAt hg
          rw [hpre]
          exact decField_cases he m t old hle h1 h2 _ _ _ _ _
        have hrec : ∀ x, recordSize (σ := Dec) m t x [] = pure [] := by
          intro x
          unfold recordSize
          rw [if_pos hsz]
        rw [bind_ok_iff]
        constructor
        · rintro ⟨x, d1, h5, h6⟩
          rw [hrec, M.bind_apply, M.pure_apply] at h6
          simp only [] at h6
          rw [bind_ok_iff] at h6
          obtain ⟨rest, d2, h6, h7⟩ := h6
          simp only [M.pure_apply, ok_inj] at h7
          obtain ⟨rfl, rfl⟩ := h7
          obtain ⟨hg1, hc1⟩ := next h5
          exact .field hl hnl ((hiff _ _).1 h5) ((decFields_inTurn he fs _ olds hrest hp hs.2 d1 hg1 hc1 _ _).1 h6)
        · intro h
          cases h with
          | left h => exact absurd h hl
          | own _ heb => exact absurd rfl (hnl heb _).1
          | ownPtr _ heb => exact absurd rfl (hnl heb _).2
          | @field _ _ _ _ _ x xs _ d1 _ _ _ h5 h6 =>
            have h5 := (hiff _ _).2 h5
            obtain ⟨hg1, hc1⟩ := next h5
            refine ⟨x, d1, h5, ?_⟩
            rw [hrec, M.bind_apply, M.pure_apply]
            simp only []
            rw [bind_ok_iff]
            exact ⟨xs, d', (decFields_inTurn he fs _ olds hrest hp hs.2 d1 hg1 hc1 _ _).2 h6, rfl⟩

/-- C85: a struct (not a Borsh enum) is decoded exactly when its fields can be decoded one after the other, each with its
flags in front of it; the result holds these fields. -/
theorem C85_struct {e : Encoding} (he : e.valid = true) (fs : Fields) (hn : ¬ (e = .borsh ∧ fs.isEnum = true))
    (ht : decodable e (.struct fs) false = true) (hp : plainTags fs = true) (olds : List Val) (cur : Option Order)
    (pre unread : Bytes) {N : Nat} (hs : Shaped N (.struct fs) (.struct olds)) (v : Val) (d' : Dec) :
    decode (.struct fs) (.struct olds) (decAt e cur pre unread) = (.ok v, d') ↔
      ∃ xs, v = .struct xs ∧ FieldsInTurn e fs olds xs (decAt e (some .le) pre unread) d' := by
  rw [decode_core he]
  simp only [decCore, decStruct, if_neg hn, Val.fields]
  rw [bind_ok_iff]
  simp only [decodable, if_neg hn] at ht
  have hs := shaped_mono (M := max N unread.length) (by omega) _ _ hs
  simp only [Shaped] at hs
  have hg := good_decAt e (some .le) pre unread
  have key := decFields_inTurn he fs false olds ht hp hs (decAt e (some .le) pre unread)
    ⟨hg.1, hg.2.1, by have := hg.2.2; omega⟩ (by simp [decAt])
  constructor
  · rintro ⟨xs, d1, h1, h2⟩
    simp only [M.pure_apply, ok_inj] at h2
    obtain ⟨rfl, rfl⟩ := h2
    exact ⟨xs, rfl, (key _ _).1 h1⟩
  · rintro ⟨xs, rfl, h⟩
    exact ⟨xs, d', (key _ _).2 h, rfl⟩

/-- A struct in Borsh with a skipped string, an optional pointer to a `uint8` (absent), a `Uint64`, a `uint8` with both flags (the
inner one 0) and an extension field with nothing left for it. -/
def demoFields : Fields :=
  .cons { name := [65], tag := { skip := true } } .str
    (.cons { name := [66], tag := { option := true } } (.ptr (.uint .w8 false))
      (.cons { name := [67] } (.lib .uint64)
        (.cons { name := [68], tag := { option := true, coption := true } } (.ptr (.uint .w8 false))
          (.cons { name := [69], tag := { binExt := true } } (.uint .w16 false) .nil))))

example : decodable .borsh (.struct demoFields) false = true ∧ plainTags demoFields = true ∧
    Shaped 1 (.struct demoFields) (.struct [.str [7], .ptr (some (.uint 9)), .uint 3, .ptr none, .uint 5]) ∧
    decode (.struct demoFields) (.struct [.str [7], .ptr (some (.uint 9)), .uint 3, .ptr none, .uint 5])
        (decAt .borsh none [1] [0, 2, 0, 0, 0, 0, 0, 0, 0, 255, 0, 0, 0, 0]) =
      (.ok (.struct [.str [7], .ptr none, .uint 2, .ptr (some (.uint 0)), .uint 5]),
        decAt .borsh (some .le) [1, 0, 2, 0, 0, 0, 0, 0, 0, 0, 255, 0, 0, 0, 0] []) := by
  refine ⟨by decide +kernel, by decide +kernel, by simp [demoFields, Shaped, ShapedFields, LibShaped], by decide +kernel⟩

example : FieldsInTurn .borsh demoFields [.str [7], .ptr (some (.uint 9)), .uint 3, .ptr none, .uint 5]
    [.str [7], .ptr none, .uint 2, .ptr (some (.uint 0)), .uint 5]
    (decAt .borsh (some .le) [1] [0, 2, 0, 0, 0, 0, 0, 0, 0, 255, 0, 0, 0, 0])
    (decAt .borsh (some .le) [1, 0, 2, 0, 0, 0, 0, 0, 0, 0, 255, 0, 0, 0, 0] []) := by
  refine .left (.inl rfl) (.field (by simp [LeftAlone]) (by simp)
    (.gone (f := [0]) (rest := [2, 0, 0, 0, 0, 0, 0, 0, 255, 0, 0, 0, 0]) (.gone rfl (by simp [OptionFlag])) (.zero (by simp)))
    (.own (d1 := decAt .borsh (some .le) [1, 0, 2, 0, 0, 0, 0, 0, 0, 0] [255, 0, 0, 0, 0]) (by simp [LeftAlone]) rfl (by decide +kernel)
      (.field (by simp [LeftAlone]) (by simp)
        (.hollow (f := [255] ++ [0, 0, 0, 0]) (rest := [])
          (.hollow rfl rfl rfl (by simp [OptionFlag]) rfl) (.ptr (.base (by simp))))
        (.left (.inr (.inr ⟨rfl, rfl⟩)) (.nil _)))))

/-- C85, pointers: decoding through a pointer decodes the value behind it, a newly allocated zero value if it is nil. -/
theorem C85_pointer {e : Encoding} (he : e.valid = true) (t : Ty) (old : Option Val) (cur : Option Order) (pre unread : Bytes)
    (v : Val) (d' : Dec) :
    decode (.ptr t) (.ptr old) (decAt e cur pre unread) = (.ok v, d') ↔
      ∃ x, v = .ptr (some x) ∧ decode t (old.getD t.zero) (decAt e cur pre unread) = (.ok x, d') := by
  rw [decode_core he, decode_core he]
  simp only [decCore]
  have hd : (Val.ptr old).deref t = old.getD t.zero := by cases old <;> rfl
  rw [bind_ok_iff, hd]
  constructor
  · rintro ⟨x, d1, h1, h2⟩
    simp only [M.pure_apply, ok_inj] at h2
    obtain ⟨rfl, rfl⟩ := h2
    exact ⟨x, rfl, h1⟩
  · rintro ⟨x, rfl, h⟩
    exact ⟨x, d', h, rfl⟩

/-- The `i`-th field type. -/
def nthType : Fields → Nat → Option Ty
  | .nil, _ => none
  | .cons _ t _, 0 => some t
  | .cons _ _ fs, i + 1 => nthType fs i

theorem decNth_cases : (fs : Fields) → (i : Nat) → (olds : List Val) → olds.length = fs.length → (xs : List Val) → (pre unread : Bytes) →
    (cur : Option Order) → (d' : Dec) →
    (decNth .borsh fs i olds (decAt .borsh cur pre unread) = (.ok xs, d') ↔
      ∃ t old x, nthType fs i = some t ∧ olds[i]? = some old ∧ xs = olds.set i x ∧
        decode t old (decAt .borsh cur pre unread) = (.ok x, d'))
  | .nil, i, olds, _, xs, pre, unread, cur, d' => by simp [decNth, nthType, M.panic]
  | .cons m t fs, i, [], hl, xs, pre, unread, cur, d' => by simp [Fields.length] at hl
  | .cons m t fs, 0, old :: olds, hl, xs, pre, unread, cur, d' => by
    simp only [decNth]
    rw [bind_ok_iff]
    simp only [nthType, List.getElem?_cons_zero, Option.some.injEq, List.set_cons_zero]
    constructor
    · rintro ⟨_, d1, h1, h2⟩
      simp only [setCurD, M.modify_apply, Prod.mk.injEq, true_and] at h1
      subst h1
      rw [bind_ok_iff] at h2
      obtain ⟨x, d2, h2, h3⟩ := h2
      simp only [M.pure_apply, ok_inj] at h3
      obtain ⟨rfl, rfl⟩ := h3
      exact ⟨t, old, x, rfl, rfl, rfl, by rw [decode_core rfl]; exact h2⟩
    · rintro ⟨_, _, x, rfl, rfl, rfl, h⟩
      rw [decode_core rfl] at h
      refine ⟨(), _, rfl, ?_⟩
      rw [bind_ok_iff]
      exact ⟨x, d', h, rfl⟩
  | .cons m t fs, i + 1, old :: olds, hl, xs, pre, unread, cur, d' => by
    simp only [decNth]
    rw [bind_ok_iff]
    simp only [nthType, List.getElem?_cons_succ, List.set_cons_succ]
    have ih := decNth_cases fs i olds (by simpa [Fields.length] using hl)
    constructor
    · rintro ⟨ys, d1, h1, h2⟩
      simp only [M.pure_apply, ok_inj] at h2
      obtain ⟨rfl, rfl⟩ := h2
      obtain ⟨t, o, x, h3, h4, rfl, h5⟩ := (ih _ _ _ _ _).1 h1
      exact ⟨t, o, x, h3, h4, rfl, h5⟩
    · rintro ⟨t, o, x, h3, h4, rfl, h5⟩
      exact ⟨_, d', (ih _ _ _ _ _).2 ⟨t, o, x, h3, h4, rfl, h5⟩, rfl⟩

theorem nthType_some : (fs : Fields) → (i : Nat) → (t : Ty) → nthType fs i = some t → i < fs.length
  | .nil, _, _, h => by simp [nthType] at h
  | .cons _ _ fs, 0, t, h => by simp [Fields.length]
  | .cons _ _ fs, i + 1, t, h => by
    simp only [nthType] at h
    have := nthType_some fs i t h
    simp only [Fields.length]; omega

/-- C85, enums in Borsh: one byte that selects a field behind the first, then the value of that field; the first field becomes the
byte, the other ones are left as they are, and no flags or other tags are looked at. -/
theorem C85_enum (fs : Fields) (hn : fs.isEnum = true) (olds : List Val) (hl : olds.length = fs.length) (cur : Option Order)
    (pre unread : Bytes) (v : Val) (d' : Dec) :
    decode (.struct fs) (.struct olds) (decAt .borsh cur pre unread) = (.ok v, d') ↔
      ∃ (b : UInt8) (rest : Bytes) (t : Ty) (old x : Val), unread = b :: rest ∧ nthType fs (b.toNat + 1) = some t ∧
        olds[b.toNat + 1]? = some old ∧ v = .struct ((olds.set (b.toNat + 1) x).set 0 (.uint b.toNat)) ∧
        decode t old (decAt .borsh cur (pre ++ [b]) rest) = (.ok x, d') := by
  rw [decode_core rfl]
  simp only [decCore, decStruct, hn, and_self, if_true, Val.fields]
  rw [bind_ok_iff]
  have hb : ∀ (n : Nat) (d1 : Dec), readUint8 (decAt .borsh (some .le) pre unread) = (.ok n, d1) ↔
      ∃ (b : UInt8) (rest : Bytes), unread = b :: rest ∧ n = b.toNat ∧ d1 = decAt .borsh (some .le) (pre ++ [b]) rest := by
    intro n d1
    have := decAt_cases (e := .borsh) (r := readUint8) (P := fun bs a => ∃ b, bs = [b] ∧ a = b.toNat)
      (readByte_took.bind fun p b hb => Took.pure _ (by rw [List.append_nil]; exact ⟨b, hb, rfl⟩))
      (by rintro bs a ⟨b, rfl, rfl⟩; exact (readByte_reads .borsh b).bind_pure) (some .le) pre unread n d1
    rw [this]
    constructor
    · rintro ⟨bs, rest, rfl, ⟨b, rfl, rfl⟩, rfl⟩
      exact ⟨b, rest, rfl, rfl, rfl⟩
    · rintro ⟨b, rest, rfl, rfl, rfl⟩
      exact ⟨[b], rest, rfl, ⟨b, rfl, rfl⟩, rfl⟩
  have hset : ∀ (x : Val) (n : Nat), (olds.set (n + 1) x).set 0 (.uint n) = .uint n :: (olds.set (n + 1) x).tail := by
    intro x n
    cases olds with
    | nil =>
      cases fs with
      | nil => cases hn
      | cons => simp [Fields.length] at hl
    | cons a as => rfl
  constructor
  · rintro ⟨n, d1, h1, h2⟩
    obtain ⟨b, rest, rfl, rfl, rfl⟩ := (hb _ _).1 h1
    split at h2
    · simp [M.err] at h2
    · rw [bind_ok_iff] at h2
      obtain ⟨xs, d2, h2, h3⟩ := h2
      simp only [M.pure_apply, ok_inj] at h3
      obtain ⟨rfl, rfl⟩ := h3
      obtain ⟨t, old, x, h4, h5, rfl, h6⟩ := (decNth_cases fs _ olds hl _ _ _ _ _).1 h2
      refine ⟨b, rest, t, old, x, rfl, h4, h5, by rw [hset], ?_⟩
      rw [decode_core rfl] at h6 ⊢
      exact h6
  · rintro ⟨b, rest, t, old, x, rfl, h4, h5, rfl, h6⟩
    refine ⟨b.toNat, _, (hb _ _).2 ⟨b, rest, rfl, rfl, rfl⟩, ?_⟩
    rw [if_neg (by have := nthType_some _ _ _ h4; omega), bind_ok_iff]
    refine ⟨_, d', (decNth_cases fs _ olds hl _ _ _ _ _).2 ⟨t, old, x, h4, h5, rfl, ?_⟩, by rw [hset]; rfl⟩
    rw [decode_core rfl] at h6 ⊢
    exact h6

/-- A Borsh enum with two variants: byte 1 selects the second. -/
example : decode (.struct (.cons { name := [65], tag := { isEnum := true } } .borshEnum (.cons { name := [66] } .str
        (.cons { name := [67] } (.uint .w16 false) .nil)))) (.struct [.uint 0, .str [7], .uint 8]) (decAt .borsh none [] [1, 4, 1, 9]) =
    (.ok (.struct [.uint 1, .str [7], .uint 260]), decAt .borsh (some .le) [1, 4, 1] [9]) := by decide +kernel

end Verif.Props
