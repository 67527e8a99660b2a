import Verif.Proofs.Work
import Verif.Proofs.Restore
/-!
Which types take at least one byte.
-/
namespace Verif
open Spec

/-- A success does not go back, and if `c` it goes forward. -/
def Moves {α : Type} (e : Encoding) (c : Bool) (m : DM α) : Prop :=
  ∀ d a d', d.Ok → d.enc = e → m d = (.ok a, d') → d'.Ok ∧ d'.enc = e ∧ d.pos ≤ d'.pos ∧ (c = true → d.pos < d'.pos)

section
variable {α β : Type} {e : Encoding} {c c1 c2 : Bool}

theorem Moves.pure (a : α) : Moves e false (pure a : DM α) := by
  intro d b d' ho he hr
  cases hr
  exact ⟨ho, he, by omega, by simp⟩

theorem Moves.err (x : Err) : Moves e c (M.err x : DM α) := by
  intro d b d' ho he hr; cases hr

theorem Moves.panic : Moves e c (M.panic : DM α) := by
  intro d b d' ho he hr; cases hr

theorem Moves.weaken {m : DM α} (h : Moves e c m) (hc : c1 = true → c = true) : Moves e c1 m := by
  intro d a d' ho he hr
  obtain ⟨h1, h2, h3, h4⟩ := h d a d' ho he hr
  exact ⟨h1, h2, h3, fun hx => h4 (hc hx)⟩

theorem Moves.bind {m : DM α} {f : α → DM β} (h1 : Moves e c1 m) (h2 : ∀ a, Moves e c2 (f a)) : Moves e (c1 || c2) (m >>= f) := by
  intro d b d' ho he hr
  cases hm : m d with
  | mk res d1 =>
    cases res with
    | err x => rw [M.bind_err hm] at hr; cases hr
    | panic => rw [M.bind_panic hm] at hr; cases hr
    | ok a =>
      rw [M.bind_ok hm] at hr
      obtain ⟨a1, a2, a3, a4⟩ := h1 d a d1 ho he hm
      obtain ⟨b1, b2, b3, b4⟩ := h2 a d1 b d' a1 a2 hr
      refine ⟨b1, b2, by omega, fun hc => ?_⟩
      rcases Bool.or_eq_true _ _ ▸ hc with h | h
      · have := a4 h; omega
      · have := b4 h; omega

theorem Moves.then {m : DM α} {f : α → DM β} (h1 : Moves e c m) (h2 : ∀ a, Moves e false (f a)) : Moves e c (m >>= f) :=
  (h1.bind h2).weaken (by simp)

theorem Moves.map {m : DM α} (g : α → β) (h1 : Moves e c m) : Moves e c (m >>= fun a => Pure.pure (g a)) := h1.then fun _ => .pure _

theorem Prim.moves (hv : e.valid = true) {m : DM α} (h : Prim m) : Moves e false m := by
  intro d a d' ho he hr
  obtain ⟨res, k, h1, -, h2⟩ := h d ho (by rw [he]; exact hv)
  rw [h1] at hr
  cases hr
  exact ⟨Dec.adv_ok ho h2, he, by simp only [Dec.adv]; omega, by simp⟩

theorem Took.moves {m : DM α} {P : Bytes → α → Prop} (h : Took e m P) (hP : ∀ bs a, P bs a → bs ≠ []) : Moves e true m := by
  intro d a d' ho he hr
  obtain ⟨bs, tail, h1, rfl, hp⟩ := h d ho he a d' hr
  have := List.length_pos_iff.mpr (hP _ _ hp)
  refine ⟨Dec.adv_ok ho (by rw [h1]; simp), he, ?_, fun _ => ?_⟩ <;> simp only [Dec.adv] <;> omega

theorem Costs.moves {m : DM α} {w : Dec → Nat} {S : Nat} {sz : α → Nat} (h : Costs e m w S sz) : Moves e false m := by
  intro d a d' ho he hr
  obtain ⟨res, k, c, h1, h2, -, -⟩ := h d ho he
  rw [h1] at hr
  cases hr
  exact ⟨Dec.to_ok (Dec.adv_ok ho h2), he, by simp only [Dec.to, Dec.adv]; omega, by simp⟩

theorem Moves.set {o : Order} {m : DM α} (h : Moves e c m) : Moves e c (setCurD o >>= fun _ => m) := by
  intro d a d' ho he hr
  exact h { d with cur := some o } a d' ho he hr

theorem Moves.get {f : Dec → DM α} (h : ∀ d, Moves e c (f d)) : Moves e c (M.get >>= f) := by
  intro d a d' ho he hr
  exact h d d a d' ho he hr

theorem Moves.ite {p : Prop} [Decidable p] {r s : DM α} (h1 : p → Moves e c r) (h2 : ¬ p → Moves e c s) :
    Moves e c (if p then r else s) := by
  split
  · exact h1 ‹_›
  · exact h2 ‹_›

theorem Moves.times {m : DM α} (h : Moves e c m) : ∀ n : Nat, Moves e (c && n != 0) (repeatM m n)
  | 0 => (Moves.pure _).weaken (by simp)
  | n + 1 => (h.bind fun _ => (h.times n).then fun _ => .pure _).weaken (by simp; intro h; simp [h])

theorem Moves.each {f : β → DM α} : ∀ ys : List β, (∀ y ∈ ys, Moves e c (f y)) → Moves e (c && !ys.isEmpty) (traverseM f ys)
  | [], _ => (Moves.pure _).weaken (by simp)
  | y :: ys, h => ((h y (by simp)).bind fun _ => (Moves.each ys fun y hy => h y (by simp [hy])).then fun _ => .pure _).weaken
      (by simp; intro h; simp [h])
end

section
variable {e : Encoding}

theorem lib_moves (hv : e.valid = true) (l : Lib) (old : Val) : Moves e (l != .emptyVariant) (unmarshalLib l old) := by
  have fix : ∀ {o : Order} {k N : Nat} {bs : Bytes} {n : Nat}, 0 < k → n < N ∧ bs = fixed o k n → bs ≠ [] := by
    intro o k N bs n hk h
    rw [h.2]; exact fixed_ne_nil _ _ _ hk
  have weak : ∀ {m : DM Val} {b : Bool}, Moves e true m → Moves e b m := fun h => h.weaken fun _ => rfl
  cases l <;> simp only [unmarshalLib]
  case safeString =>
    refine weak (Moves.map _ ?_)
    unfold safeReadUTF8String
    exact Moves.map _ ((readByteSlice_took hv).moves fun bs b h => List.length_pos_iff.mp (by omega))
  case bool => exact weak (Moves.map _ (readBool_took.moves fun bs b h => h))
  case hexBytes => exact weak (Moves.map _ ((readByteSlice_took hv).moves fun bs b h => List.length_pos_iff.mp (by omega)))
  case varint16 => exact weak (Moves.map _ (Moves.map _ (readVarint64_took.moves fun bs b h => h)))
  case varint32 => exact weak (Moves.map _ (Moves.map _ (readVarint64_took.moves fun bs b h => h)))
  case varuint16 => exact weak (Moves.map _ (Moves.map _ (readUvarint64_took.moves fun bs b h => groups_ne_nil h.1)))
  case varuint32 => exact weak (Moves.map _ (readUvarint64_took.moves fun bs b h => groups_ne_nil h.1))
  case jsonFloat64 =>
    refine weak (Moves.get fun d => ?_)
    split
    · exact .panic
    · exact Moves.map _ ((readFloat64_took _).moves fun bs n h => by rw [h.2.1]; exact fixed_ne_nil _ _ _ (by decide))
  case int64 =>
    refine weak (Moves.get fun d => ?_)
    split
    · exact .panic
    · exact Moves.map _ ((readInt64_took _).moves fun bs n h => by rw [h.2.2]; exact fixed_ne_nil _ _ _ (by decide))
  case uint64 =>
    refine weak (Moves.get fun d => ?_)
    split
    · exact .panic
    · exact Moves.map _ ((readUint64_took _).moves fun bs n h => by rw [h.2]; exact fixed_ne_nil _ _ _ (by decide))
  case uint128 | int128 | float128 =>
    refine weak (Moves.get fun d => ?_)
    exact Moves.map _ ((readUint128_took _).moves fun bs n h => by rw [h.2.2]; exact fixed_ne_nil _ _ _ (by decide))
  case emptyVariant => exact Moves.pure _

theorem plain_moves (hv : e.valid = true) (k : Kind) (o : Opt) : Moves e true (decPlain e k o) := by
  unfold decPlain
  generalize (if e = .borsh then Order.le else o.order) = ord
  have fx : ∀ {b : Bytes} {o : Order} {k n : Nat}, b = fixed o k n → 0 < k → b ≠ [] := fun h hk => by
    rw [h]; exact fixed_ne_nil _ _ _ hk
  unfold decScalar
  split
  · refine Moves.map _ ?_
    split
    · unfold readRustString
      refine ((readUint64_took .le).moves fun bs n h => fx h.2 (by decide)).then fun n => ?_
      exact .ite (fun _ => .err _) fun _ => (readNBytes_prim _).moves hv
    · exact (readByteSlice_took hv).moves fun bs b h => List.length_pos_iff.mp (by omega)
  · exact Moves.map _ (readByte_took.moves fun bs b h => by simp [h])
  · exact Moves.map _ (readInt8_took.moves fun bs b h => fx h.2.2 (by decide))
  · exact Moves.map _ ((readInt16_took _).moves fun bs b h => fx h.2.2 (by decide))
  · exact Moves.map _ ((readInt32_took _).moves fun bs b h => fx h.2.2 (by decide))
  · exact Moves.map _ ((readInt64_took _).moves fun bs b h => fx h.2.2 (by decide))
  · exact Moves.map _ ((readUint16_took _).moves fun bs b h => fx h.2 (by decide))
  · exact Moves.map _ ((readUint32_took _).moves fun bs b h => fx h.2 (by decide))
  · exact Moves.map _ ((readUint64_took _).moves fun bs b h => fx h.2 (by decide))
  · exact Moves.map _ ((readFloat32_took _).moves fun bs b h => fx h.2.1 (by decide))
  · exact Moves.map _ ((readFloat64_took _).moves fun bs b h => fx h.2.1 (by decide))
  · exact Moves.map _ (readBool_took.moves fun bs b h => h)
  · exact .panic

theorem flag_moves (hv : e.valid = true) : Moves e true (readFlag e) := (readFlag_took hv).moves fun _ _ h => h

theorem coption_moves : Moves e true readCOption := readCOption_took.moves fun bs b h => by
  rw [h]; exact fixed_ne_nil _ _ _ (by decide)

theorem seqLen_moves (hv : e.valid = true) : Moves e true (readSeqLen e) := (readSeqLen_took hv).moves fun _ _ h => h.1

theorem uints_moves (hv : e.valid = true) (n : Nat) (w : Width) : Moves e (n != 0) (readUints n w) := by
  have wide : ∀ w, Moves e (n != 0) ((if (n : Int) < 0 then M.panic else do
      let ns ← repeatM (readUintW w .le) (n : Int).toNat
      Pure.pure (ns.map Val.uint)) : DM (List Val)) := fun w =>
    .ite (fun _ => .panic) fun _ => Moves.map _ ((((uintW_took w).moves fun bs k h => by
      rw [h.2]; exact fixed_ne_nil _ _ _ (by cases w <;> decide)).times _).weaken (by simp))
  unfold readUints
  refine .get fun d => .ite (fun _ => .err _) fun _ => ?_
  cases w with
  | w8 =>
    refine Moves.map _ ?_
    by_cases hn : n = 0
    · exact ((readNBytes_prim _).moves hv).weaken (by simp [hn])
    · refine ((readNBytes_took (n : Int)).moves fun bs b h => ?_).weaken fun _ => rfl
      obtain ⟨rfl, h1, -⟩ := h
      exact List.length_pos_iff.mp (by omega)
  | w16 => exact wide _
  | w32 => exact wide _
  | w64 => exact wide _

theorem takes_sized : (t : Ty) → (b : Bool) → takes e t b = true → takes e t false = true
  | .ptr t, b, h => by simp only [takes] at h ⊢; exact takes_sized t b h
  | .slice t, b, h => by simp [takes]
  | .lib _, _, h | .array _ _, _, h | .struct _, _, h | .iface, _, h => by simpa only [takes] using h
  | .bool, _, _ | .uint _ _, _, _ | .int _ _, _, _ | .borshEnum, _, _ | .f32, _, _ | .f64, _, _ | .str, _, _ | .map _ _, _, _
  | .plainInt, _, _ | .plainUint, _, _ | .other, _, _ => by simp only [takes]

theorem field_moves (hv : e.valid = true) (t : Ty) (o : Opt) (old : Val) (core : DM Val) {c : Bool} (h : Moves e c core) :
    Moves e (o.optional || (e == .borsh && o.coptional) || c) (decField e t o old core) := by
  unfold decField
  refine Moves.set ?_
  split
  · rename_i ho
    split
    · exact .panic
    · refine Moves.weaken (c := true) ?_ (by simp)
      refine (flag_moves hv).then fun p => ?_
      have hc : Moves e false core := h.weaken (by simp)
      refine .ite (fun _ => .ite (fun _ => .ite (fun _ => .panic) fun _ => ?_) fun _ => hc) fun _ => .pure _
      exact (coption_moves.weaken (by simp)).then fun p => .ite (fun _ => hc) fun _ => .pure _
  · rename_i ho
    split
    · split
      · exact .panic
      · refine Moves.weaken (c := true) ?_ (by simp)
        exact coption_moves.then fun p => .ite (fun _ => h.weaken (by simp)) fun _ => .pure _
    · rename_i hb
      refine h.weaken ?_
      simp only [Bool.or_eq_true, Bool.and_eq_true, beq_iff_eq, ho, false_or, hb]
      simp

theorem record_moves {α : Type} {c : Bool} (m : FieldMeta) (t : Ty) (v : Val) (sm : List (Bytes × Int)) (names : List Bytes)
    (hs : ∀ x ∈ sm, x.1 ∈ names) {f : List (Bytes × Int) → DM α} (h : ∀ sm', (∀ x ∈ sm', x.1 ∈ announced m names) → Moves e c (f sm')) :
    Moves e c (recordSize m t v sm >>= f) := by
  unfold recordSize
  by_cases h0 : m.tag.sizeOf = []
  · rw [if_pos h0]
    exact h sm fun x hx => by rw [announced, if_pos h0]; exact hs x hx
  · rw [if_neg h0]
    cases sizeofVal t.kind v with
    | ok n =>
      refine h ((m.tag.sizeOf, n) :: sm) fun x hx => ?_
      rw [announced, if_neg h0]
      rcases List.mem_cons.mp hx with rfl | hx
      · exact List.mem_cons_self
      · exact List.mem_cons_of_mem _ (hs x hx)
    | err x => exact Moves.err x
    | panic => exact Moves.panic

theorem lookupSize_names {sm : List (Bytes × Int)} {names : List Bytes} (hs : ∀ x ∈ sm, x.1 ∈ names) {name : Bytes}
    (h : (lookupSize name sm).isSome = true) : names.contains name = true := by
  induction sm with
  | nil => simp [lookupSize] at h
  | cons p sm ih =>
    simp only [lookupSize] at h
    split at h
    · rename_i hn
      subst hn
      simpa using hs p (by simp)
    · exact ih (fun q hq => hs q (by simp [hq])) h

mutual
theorem core_moves (hv : e.valid = true) : (t : Ty) → (o : Opt) → Moves e (takes e t o.sizeOf.isSome) (decCore e t o t.zero)
  | .lib l, o => lib_moves hv l _
  | .ptr t, o => Moves.map _ (core_moves hv t o)
  | .slice t, o => by
    have body : ∀ l : Int, Moves e false (if e = .borsh ∧ l = 0 then Pure.pure (Val.seq none) else do
        let d ← M.get
        if l > d.remaining then M.err .eof
        else
          match t.uintKind with
          | some w => do
            let xs ← readUints l w
            Pure.pure (Val.seq (some xs))
          | none => do
            let xs ← repeatM (do setCurD .le; decCore e t {} t.zero) l.toNat
            Pure.pure (Val.seq (some xs))) := by
      intro l
      refine .ite (fun _ => .pure _) fun _ => .get fun d => .ite (fun _ => .err _) fun _ => ?_
      split
      · exact Moves.map _ (costs_uints hv _ _).moves
      · exact Moves.map _ ((((core_moves hv t {}).set).times _).weaken (by simp))
    unfold decCore
    cases ho : o.sizeOf with
    | some s => exact (body s).weaken (by simp [takes])
    | none =>
      exact ((seqLen_moves hv).then fun n => body (n : Int)).weaken (by simp)
  | .array n t, o => by
    unfold decCore
    cases hk : t.uintKind with
    | some w => exact (Moves.map _ (uints_moves hv n w)).weaken (by simp [takes, hk])
    | none =>
      refine (Moves.map _ (Moves.each (c := takes e t false) _ fun x hx => ?_)).weaken ?_
      · simp only [Ty.zero, Val.elems, List.mem_replicate] at hx
        rw [hx.2]
        exact (core_moves hv t {}).set
      · simp only [takes, hk, Ty.zero, Val.elems]
        cases n <;> simp [List.replicate]
  | .map k t, o => by
    unfold decCore
    refine ((seqLen_moves hv).then fun l => .ite (fun _ => .pure _) fun _ => ?_).weaken (by simp)
    refine Moves.map _ ((Moves.times (c := false) ?_ _).weaken (by simp))
    refine Moves.set (((core_moves hv k {}).weaken (by simp)).then fun x => ?_)
    exact Moves.set (Moves.map _ ((core_moves hv t {}).weaken (by simp)))
  | .struct fs, o => by
    unfold decCore decStruct
    split
    · rename_i hb
      refine Moves.weaken (c := true) ?_ (by simp)
      refine (readUint8_took.moves fun bs n h => by rw [h.2]; exact fixed_ne_nil _ _ _ (by decide)).then fun tag => ?_
      exact .ite (fun _ => .err _) fun _ => Moves.map _ (nth_moves hv fs _)
    · rename_i hb
      refine (Moves.map _ (fields_moves hv fs [] false [] (by simp))).weaken ?_
      simp only [takes, Bool.or_eq_true, Bool.and_eq_true, beq_iff_eq, hb, false_or]
      exact id
  | .iface, o => Moves.pure _
  | .bool, o => plain_moves hv _ o
  | .uint w _, o => plain_moves hv _ o
  | .int w _, o => plain_moves hv _ o
  | .borshEnum, o => plain_moves hv _ o
  | .f32, o => plain_moves hv _ o
  | .f64, o => plain_moves hv _ o
  | .str, o => plain_moves hv _ o
  | .plainInt, o => Moves.err _
  | .plainUint, o => Moves.err _
  | .other, o => Moves.err _
theorem fields_moves (hv : e.valid = true) : (fs : Fields) → (sm : List (Bytes × Int)) → (seen : Bool) → (names : List Bytes) →
    (∀ x ∈ sm, x.1 ∈ names) → Moves e (takesFields e fs names) (decFields e fs sm seen fs.zeros)
  | .nil, sm, seen, names, _ => Moves.pure _
  | .cons m t fs, sm, seen, names, hs => by
    have ha : ∀ x ∈ sm, x.1 ∈ announced m names := fun x hx => by
      unfold announced; split
      · exact hs x hx
      · exact List.mem_cons_of_mem _ (hs x hx)
    have rest : ∀ sm' seen', (∀ x ∈ sm', x.1 ∈ announced m names) →
        Moves e (takesFields e fs (announced m names)) (decFields e fs sm' seen' fs.zeros) := fun sm' seen' h =>
      fields_moves hv fs sm' seen' _ h
    have field : ∀ seen', Moves e ((if e = .borsh ∧ t.directLib.isSome then takes e t false
          else m.tag.option || (e == .borsh && m.tag.coption) || takes e t (names.contains m.name)) ||
          takesFields e fs (announced m names))
        (match (if e = Encoding.borsh then t.directLib else none) with
          | some (l, isPtr) => do
            let x ← unmarshalLib l l.zero
            let rest ← decFields e fs sm seen' fs.zeros
            Pure.pure ((if isPtr then .ptr (some x) else x) :: rest)
          | none => do
            let x ← decField e t (fieldOpt m sm) t.zero (decCore e t (fieldOpt m sm) t.zero)
            let sm ← recordSize m t x sm
            let rest ← decFields e fs sm seen' fs.zeros
            Pure.pure (x :: rest)) := by
      intro seen'
      cases hd : (if e = Encoding.borsh then t.directLib else none) with
      | some p =>
        obtain ⟨l, isPtr⟩ := p
        have hb : e = .borsh ∧ t.directLib = some (l, isPtr) := by
          by_cases hb : e = .borsh
          · exact ⟨hb, by rw [← hd, if_pos hb]⟩
          · rw [if_neg hb] at hd; cases hd
        refine ((lib_moves hv l _).bind fun x => Moves.map _ (rest sm seen' ha)).weaken ?_
        rw [if_pos ⟨hb.1, by rw [hb.2]; rfl⟩]
        rcases directLib_cases hb.2 with ⟨rfl, -⟩ | ⟨rfl, -⟩ <;> simp only [takes] <;> exact id
      | none =>
        have hb : ¬ (e = .borsh ∧ t.directLib.isSome = true) := by
          rintro ⟨hb, h⟩
          rw [if_pos hb] at hd
          rw [hd] at h; cases h
        refine ((field_moves hv t (fieldOpt m sm) t.zero _ (core_moves hv t (fieldOpt m sm))).bind fun x =>
          record_moves m t x sm names hs fun sm' hs' => Moves.map _ (rest sm' seen' hs')).weaken ?_
        rw [if_neg hb]
        simp only [fieldOpt, Bool.or_eq_true]
        rintro ((h | h) | h)
        · exact .inl (.inl h)
        · refine .inl (.inr ?_)
          cases hl : (lookupSize m.name sm).isSome with
          | false => exact takes_sized t _ h
          | true => rwa [lookupSize_names hs hl] at h
        · exact .inr h
    unfold decFields takesFields Fields.zeros
    simp only []
    by_cases hk : m.tag.skip = true
    · rw [if_pos hk, if_pos hk]
      exact Moves.map _ (fields_moves hv fs sm seen names hs)
    · rw [if_neg hk, if_neg hk]
      refine .ite (fun _ => .panic) fun _ => ?_
      cases hx : m.tag.binExt with
      | true =>
        refine ((((extensionEnds_prim m).moves hv).bind fun b => ?_)).weaken (c := false || takesFields e fs (announced m names)) (by simp)
        refine .ite (fun _ => Moves.map _ (rest sm _ ha)) fun _ => ?_
        exact (field _).weaken (by intro h; rw [h, Bool.or_true])
      | false =>
        have he : extensionEnds m = Pure.pure false := by simp [extensionEnds, hx]
        rw [he]
        show Moves e _ (if (false || !m.exported) = true then _ else _)
        refine .ite (fun h => ?_) fun h => ?_
        · refine (Moves.map _ (rest sm _ ha)).weaken ?_
          simp only [Bool.false_or, Bool.not_eq_true'] at h
          simp [h]
        · refine (field _).weaken ?_
          simp only [Bool.false_or, Bool.not_eq_true', Bool.not_eq_false] at h
          simp only [h, Bool.not_false, Bool.and_true, Bool.true_and]
          exact id
theorem nth_moves (hv : e.valid = true) : (fs : Fields) → (i : Nat) → Moves e false (decNth e fs i fs.zeros)
  | .nil, _ => .panic
  | .cons m t fs, 0 => ((Moves.map _ (core_moves hv t {})).set).weaken (by simp)
  | .cons m t fs, i + 1 => Moves.map _ (nth_moves hv fs i)
end

theorem takes_sound (hv : e.valid = true) {t : Ty} (h : takes e t false = true) : Takes e t := by
  intro d v d' h1 h2 he hr
  unfold decode at hr
  rw [M.bind_apply, M.get_apply] at hr
  simp only [] at hr
  rw [if_neg (by rw [he]; intro h0; rw [h0] at hv; cases hv), he] at hr
  exact ((core_moves hv t {}).set (o := .le) d v d' ⟨h1, h2⟩ he hr).2.2.2 h
end
end Verif
