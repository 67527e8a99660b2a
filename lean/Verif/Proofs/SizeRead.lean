import Verif.Spec.Size
import Verif.Proofs.Size
import Verif.Proofs.Takes
import Verif.Proofs.Canonical
/-!
A successful decode takes between `least` and `most` bytes.
-/
set_option linter.unusedSimpArgs false
namespace Verif
open Spec

/-- A success moves the cursor by at least `lo` and, if `b`, by at most `hi`. -/
def Spans {α : Type} (e : Encoding) (lo : Nat) (b : Bool) (hi : Nat) (m : DM α) : Prop :=
  ∀ d a d', d.Ok → d.enc = e → m d = (.ok a, d') → d'.Ok ∧ d'.enc = e ∧ d'.data = d.data ∧ d.pos + lo ≤ d'.pos ∧ (b = true → d'.pos ≤ d.pos + hi)

section
variable {α β : Type} {e : Encoding} {lo hi lo1 hi1 lo2 hi2 : Nat} {b b1 b2 : Bool}

theorem Spans.pure (a : α) : Spans e 0 b hi (pure a : DM α) := by
  intro d x d' ho he hr
  cases hr
  exact ⟨ho, he, rfl, by omega, fun _ => by omega⟩

theorem Spans.err (x : Err) : Spans e lo b hi (M.err x : DM α) := by
  intro d a d' ho he hr; cases hr

theorem Spans.panic : Spans e lo b hi (M.panic : DM α) := by
  intro d a d' ho he hr; cases hr

theorem Spans.weaken {m : DM α} (h : Spans e lo b hi m) (hl : lo1 ≤ lo) (hb : b1 = true → b = true ∧ hi ≤ hi1) : Spans e lo1 b1 hi1 m := by
  intro d a d' ho he hr
  obtain ⟨h1, h2, h0, h3, h4⟩ := h d a d' ho he hr
  exact ⟨h1, h2, h0, by omega, fun hx => by have := h4 (hb hx).1; have := (hb hx).2; omega⟩

theorem Spans.bind {m : DM α} {f : α → DM β} (h1 : Spans e lo1 b1 hi1 m) (h2 : ∀ a, Spans e lo2 b2 hi2 (f a)) :
    Spans e (lo1 + lo2) (b1 && b2) (hi1 + hi2) (m >>= f) := by
  intro d x d' ho he hr
  cases hm : m d with
  | mk res d1 =>
    cases res with
    | err x => rw [M.bind_err hm] at hr; cases hr
    | panic => rw [M.bind_panic hm] at hr; cases hr
    | ok a =>
      rw [M.bind_ok hm] at hr
      obtain ⟨a1, a2, a0, a3, a4⟩ := h1 d a d1 ho he hm
      obtain ⟨b1, b2, b0, b3, b4⟩ := h2 a d1 x d' a1 a2 hr
      refine ⟨b1, b2, b0.trans a0, by omega, fun hc => ?_⟩
      rw [Bool.and_eq_true] at hc
      have := a4 hc.1; have := b4 hc.2; omega

theorem Spans.map {m : DM α} (g : α → β) (h1 : Spans e lo b hi m) : Spans e lo b hi (m >>= fun a => Pure.pure (g a)) :=
  (h1.bind (lo2 := 0) (b2 := true) (hi2 := 0) fun _ => .pure _).weaken (Nat.le_refl _) (by simp)

theorem Took.spans {m : DM α} {P : Bytes → α → Prop} (h : Took e m P) (hP : ∀ bs a, P bs a → lo ≤ bs.length ∧ (b = true → bs.length ≤ hi)) :
    Spans e lo b hi m := by
  intro d a d' ho he hr
  obtain ⟨bs, tail, h1, rfl, hp⟩ := h d ho he a d' hr
  have := hP _ _ hp
  refine ⟨Dec.adv_ok ho (by rw [h1]; simp), he, rfl, ?_, fun hb => ?_⟩ <;> simp only [Dec.adv]
  · have := this.1; omega
  · have := this.2 hb; omega

/-- Reads of a fixed size. -/
theorem Took.exact {m : DM α} {P : Bytes → α → Prop} {k : Nat} (h : Took e m P) (hP : ∀ bs a, P bs a → bs.length = k) :
    Spans e k b k m := h.spans fun bs a hp => by rw [hP bs a hp]; exact ⟨Nat.le_refl _, fun _ => Nat.le_refl _⟩

theorem Spans.set {o : Order} {m : DM α} (h : Spans e lo b hi m) : Spans e lo b hi (setCurD o >>= fun _ => m) := by
  intro d a d' ho he hr
  exact h { d with cur := some o } a d' ho he hr

theorem Spans.get {f : Dec → DM α} (h : ∀ d, Spans e lo b hi (f d)) : Spans e lo b hi (M.get >>= f) := by
  intro d a d' ho he hr
  exact h d d a d' ho he hr

theorem Spans.ite {p : Prop} [Decidable p] {r s : DM α} (h1 : p → Spans e lo b hi r) (h2 : ¬ p → Spans e lo b hi s) :
    Spans e lo b hi (if p then r else s) := by
  split
  · exact h1 ‹_›
  · exact h2 ‹_›

theorem Spans.times {m : DM α} (h : Spans e lo b hi m) : ∀ n : Nat, Spans e (n * lo) b (n * hi) (repeatM m n)
  | 0 => (Spans.pure (hi := 0) (b := b) _).weaken (by simp) (by simp)
  | n + 1 => (h.bind fun _ => (h.times n).map _).weaken (by rw [Nat.add_mul]; omega) (by intro h; rw [Nat.add_mul]; simp [h]; omega)

theorem Spans.each {f : β → DM α} : ∀ ys : List β, (∀ y ∈ ys, Spans e lo b hi (f y)) → Spans e (ys.length * lo) b (ys.length * hi) (traverseM f ys)
  | [], _ => (Spans.pure (hi := 0) (b := b) _).weaken (by simp) (by simp)
  | y :: ys, h => ((h y (by simp)).bind fun _ => (Spans.each ys fun y hy => h y (by simp [hy])).map _).weaken
      (by simp only [List.length_cons, Nat.add_mul]; omega) (by intro h; simp only [List.length_cons, Nat.add_mul]; simp [h]; omega)
end

section
variable {e : Encoding}

theorem bool_exact : Took e readBool fun bs _ => bs.length = 1 := by
  intro d ho he a d' h
  rw [readBool_eq ho] at h
  cases hr : d.rest with
  | nil => rw [hr] at h; simp at h
  | cons b t =>
    rw [hr] at h
    simp only [Prod.mk.injEq] at h
    exact ⟨[b], t, rfl, h.2.symm, by simp⟩

theorem varint_short : Took e readVarint64 fun bs _ => 1 ≤ bs.length ∧ bs.length ≤ 10 := by
  intro d ho he a d' h
  rw [readVarint64_eq ho] at h
  rcases goUvarint_cases d.rest with ⟨h', -⟩ | ⟨bs, t, hb, hg, h1, h10, hlt, hres⟩
  · rw [if_pos h'] at h; simp at h
  · rw [hres, if_neg (by show ¬ ((bs.length : Int) ≤ 0); omega)] at h
    simp only [Prod.mk.injEq, Res.ok.injEq, Int.toNat_natCast] at h
    exact ⟨bs, t, hb, h.2.symm, by omega, by omega⟩

theorem flag_exact (hv : e.valid = true) : Took e (readFlag e) fun bs _ => bs.length = flagBytes e := by
  have hb : Took e readByte fun bs _ => bs.length = 1 := readByte_took.weaken fun bs b h => by rw [h]; simp
  cases e
  · exact (readUint32_took .le).map fun bs n h => by rw [h.2, fixed_length]; rfl
  · exact hb.map fun bs b h => h
  · exact hb.map fun bs b h => h
  · cases hv

theorem seqLen_least (hv : e.valid = true) : Took e (readSeqLen e) fun bs _ => prefixLeast e ≤ bs.length := by
  by_cases hb : e = .bin
  · subst hb
    exact (readSeqLen_took hv).weaken fun bs n h => List.length_pos_iff.mpr h.1
  · exact (readSeqLen_got hv hb).weaken fun bs n h => by rw [h.1]; exact prefix_least e n

theorem byteSlice_least (hv : e.valid = true) : Took e readByteSlice fun bs _ => prefixLeast e ≤ bs.length := by
  by_cases hb : e = .bin
  · subst hb
    exact (readByteSlice_took hv).weaken fun bs n h => by simp only [prefixLeast]; omega
  · exact (readByteSlice_got hv hb).weaken fun bs n h => by
      rw [h.1, List.length_append]; exact Nat.le_trans (prefix_least e _) (Nat.le_add_right _ _)

theorem coption_exact : Took e readCOption fun bs _ => bs.length = 4 := readCOption_took.weaken fun bs b h => by rw [h, cflag, fixed_length]

theorem lib_spans (hv : e.valid = true) (l : Lib) (old : Val) :
    Spans e (libLeast e l) (libMost false l).isSome ((libMost true l).getD 0) (unmarshalLib l old) := by
  have vr : ∀ {α : Type} {m : DM α}, Took e m (fun bs _ => 1 ≤ bs.length ∧ bs.length ≤ 10) → Spans e 1 true 10 m := fun h =>
    h.spans fun _ _ h => ⟨h.1, fun _ => h.2⟩
  have uv : Spans e 1 true 10 readUvarint64 := readUvarint64_took.spans fun bs n h =>
    ⟨List.length_pos_iff.mpr (groups_ne_nil h.1), fun _ => h.2.1⟩
  cases l <;> simp only [unmarshalLib]
  case safeString =>
    refine Spans.map _ ?_
    unfold safeReadUTF8String
    exact Spans.map _ ((byteSlice_least hv).spans fun bs b h => ⟨h, by simp [libMost]⟩)
  case bool => exact Spans.map _ (bool_exact.exact fun bs b h => h)
  case hexBytes => exact Spans.map _ ((byteSlice_least hv).spans fun bs b h => ⟨h, by simp [libMost]⟩)
  case varint16 => exact Spans.map _ (Spans.map _ (vr varint_short))
  case varint32 => exact Spans.map _ (Spans.map _ (vr varint_short))
  case varuint16 => exact Spans.map _ (Spans.map _ uv)
  case varuint32 => exact Spans.map _ uv
  case jsonFloat64 =>
    refine Spans.get fun d => ?_
    split
    · exact .panic
    · exact Spans.map _ ((readFloat64_took _).exact fun bs n h => by rw [h.2.1, fixed_length]; rfl)
  case int64 =>
    refine Spans.get fun d => ?_
    split
    · exact .panic
    · exact Spans.map _ ((readInt64_took _).exact fun bs n h => by rw [h.2.2, fixed_length]; rfl)
  case uint64 =>
    refine Spans.get fun d => ?_
    split
    · exact .panic
    · exact Spans.map _ ((readUint64_took _).exact fun bs n h => by rw [h.2, fixed_length]; rfl)
  case uint128 | int128 | float128 =>
    refine Spans.get fun d => ?_
    exact Spans.map _ ((readUint128_took _).exact fun bs n h => by rw [h.2.2, fixed_length]; rfl)
  case emptyVariant => exact Spans.pure _

theorem str_spans (hv : e.valid = true) (o : Opt) : Spans e (if e = .bin then 8 else prefixLeast e) false 0 (decPlain e .string o) := by
  unfold decPlain
  refine (decStr_got hv _).spans fun bs v h => ⟨?_, by simp⟩
  obtain ⟨s, -, rfl, -⟩ := h
  rw [List.length_append]
  refine Nat.le_trans ?_ (Nat.le_add_right _ _)
  unfold strPrefix
  split
  · simp
  · exact prefix_least e _

/-- bytes of a kind -/
def kindSize : Kind → Nat
  | .uint w | .int w => w.bytes
  | .f32 => 4
  | .f64 => 8
  | .bool => 1
  | _ => 0

theorem plain_spans (k : Kind) (o : Opt) (hs : k ≠ .string) : Spans e (kindSize k) true (kindSize k) (decPlain e k o) := by
  unfold decPlain
  generalize (if e = .borsh then Order.le else o.order) = ord
  unfold decScalar
  split
  · exact absurd rfl hs
  · exact Spans.map _ (readByte_took.exact fun bs b h => by rw [h]; rfl)
  · exact Spans.map _ (readInt8_took.exact fun bs b h => by rw [h.2.2, fixed_length]; rfl)
  · exact Spans.map _ ((readInt16_took _).exact fun bs b h => by rw [h.2.2, fixed_length]; rfl)
  · exact Spans.map _ ((readInt32_took _).exact fun bs b h => by rw [h.2.2, fixed_length]; rfl)
  · exact Spans.map _ ((readInt64_took _).exact fun bs b h => by rw [h.2.2, fixed_length]; rfl)
  · exact Spans.map _ ((readUint16_took _).exact fun bs b h => by rw [h.2, fixed_length]; rfl)
  · exact Spans.map _ ((readUint32_took _).exact fun bs b h => by rw [h.2, fixed_length]; rfl)
  · exact Spans.map _ ((readUint64_took _).exact fun bs b h => by rw [h.2, fixed_length]; rfl)
  · exact Spans.map _ ((readFloat32_took _).exact fun bs b h => by rw [h.2.1, fixed_length]; rfl)
  · exact Spans.map _ ((readFloat64_took _).exact fun bs b h => by rw [h.2.1, fixed_length]; rfl)
  · exact Spans.map _ (bool_exact.exact fun bs b h => h)
  · exact .panic

theorem uints_spans (n : Int) (w : Width) : Spans e (n.toNat * w.bytes) true (n.toNat * w.bytes) (readUints n w) := by
  have wide : ∀ w, Spans e (n.toNat * w.bytes) true (n.toNat * w.bytes) ((if n < 0 then M.panic else do
      let ns ← repeatM (readUintW w .le) n.toNat
      Pure.pure (ns.map Val.uint)) : DM (List Val)) := fun w =>
    .ite (fun _ => .panic) fun _ => Spans.map _ (((uintW_took w).exact fun bs k h => by rw [h.2, fixed_length]).times _)
  unfold readUints
  refine .get fun d => .ite (fun _ => .err _) fun _ => ?_
  cases w with
  | w8 =>
    refine Spans.map _ ((readNBytes_took n).exact fun bs b h => ?_)
    obtain ⟨rfl, h1, -⟩ := h
    simp only [Width.bytes]; omega
  | w16 => exact wide _
  | w32 => exact wide _
  | w64 => exact wide _

theorem least_sized : (t : Ty) → (b : Bool) → least true e t true ≤ least true e t b
  | .ptr t, b => by simp only [least, if_true]; exact least_sized t b
  | .slice t, b => by simp [least]
  | .lib _, _ | .array _ _, _ | .struct _, _ | .iface, _ => by simp only [least]; exact Nat.le_refl _
  | .bool, _ | .uint _ _, _ | .int _ _, _ | .borshEnum, _ | .f32, _ | .f64, _ | .str, _ | .map _ _, _
  | .plainInt, _ | .plainUint, _ | .other, _ => by simp only [least]; exact Nat.le_refl _

theorem field_spans (hv : e.valid = true) (t : Ty) (o : Opt) (old : Val) (core : DM Val) {lo hi : Nat} {b : Bool} (h : Spans e lo b hi core) :
    Spans e (if o.optional then flagBytes e else if e = .borsh ∧ o.coptional then 4 else lo) b
      ((if o.optional then flagBytes e else 0) + (if e = .borsh ∧ o.coptional then 4 else 0) + hi) (decField e t o old core) := by
  unfold decField
  have hf : Spans e (flagBytes e) true (flagBytes e) (readFlag e) := (flag_exact hv).exact fun _ _ h => h
  have hc : Spans e 4 true 4 readCOption := coption_exact.exact fun _ _ h => h
  have h0 : ∀ {hi' : Nat}, hi ≤ hi' → Spans e 0 b hi' core := fun hle => h.weaken (Nat.zero_le _) fun hb => ⟨hb, hle⟩
  refine Spans.set ?_
  have cop : Spans e 0 b (4 + hi) (do let present ← readCOption; if present then core else pure (absentBase t) : DM Val) :=
    (hc.bind (lo2 := 0) (b2 := b) (hi2 := hi) fun p => .ite (fun _ => h0 (Nat.le_refl _)) fun _ => .pure _).weaken (Nat.zero_le _)
      (by intro hb; exact ⟨by simpa using hb, Nat.le_refl _⟩)
  by_cases ho : o.optional = true <;> by_cases hco : e = .borsh ∧ o.coptional = true
  · simp only [if_pos ho, if_pos hco]
    refine .ite (fun _ => .panic) fun _ => ?_
    refine (hf.bind (lo2 := 0) (b2 := b) (hi2 := 4 + hi) fun p => ?_).weaken (by omega) (by intro hb; exact ⟨by simpa using hb, by omega⟩)
    exact .ite (fun _ => .ite (fun _ => .panic) fun _ => cop) fun _ => .pure _
  · simp only [if_pos ho, if_neg hco]
    refine .ite (fun _ => .panic) fun _ => ?_
    refine (hf.bind (lo2 := 0) (b2 := b) (hi2 := hi) fun p => ?_).weaken (by omega) (by intro hb; exact ⟨by simpa using hb, by omega⟩)
    exact .ite (fun _ => h0 (Nat.le_refl _)) fun _ => .pure _
  · simp only [if_neg ho, if_pos hco]
    refine .ite (fun _ => .panic) fun _ => ?_
    exact (hc.bind (lo2 := 0) (b2 := b) (hi2 := hi) fun p => .ite (fun _ => h0 (Nat.le_refl _)) fun _ => .pure _).weaken (by omega)
      (by intro hb; exact ⟨by simpa using hb, by omega⟩)
  · simp only [if_neg ho, if_neg hco]
    exact h.weaken (Nat.le_refl _) fun hb => ⟨hb, by omega⟩

theorem record_spans {α : Type} {lo hi : Nat} {b : Bool} (m : FieldMeta) (t : Ty) (v : Val) (sm : List (Bytes × Int)) (names : List Bytes)
    (hs : ∀ x ∈ sm, x.1 ∈ names) {f : List (Bytes × Int) → DM α} (h : ∀ sm', (∀ x ∈ sm', x.1 ∈ announced m names) → Spans e lo b hi (f sm')) :
    Spans e lo b hi (recordSize m t v sm >>= f) := by
  unfold recordSize
  by_cases h0 : m.tag.sizeOf = []
  · rw [if_pos h0]
    exact h sm fun x hx => by rw [announced, if_pos h0]; exact hs x hx
  · rw [if_neg h0]
    cases sizeofVal t.kind v with
    | ok n =>
      refine h ((m.tag.sizeOf, n) :: sm) fun x hx => ?_
      rw [announced, if_neg h0]
      rcases List.mem_cons.mp hx with rfl | hx
      · exact List.mem_cons_self
      · exact List.mem_cons_of_mem _ (hs x hx)
    | err x => exact Spans.err x
    | panic => exact Spans.panic

mutual
theorem core_spans (hv : e.valid = true) : (t : Ty) → (o : Opt) →
    Spans e (least true e t o.sizeOf.isSome) (Bounded e t) (most true e t) (decCore e t o t.zero)
  | .lib l, o => by
    have := lib_spans hv l l.zero
    unfold decCore
    simp only [least, Bounded, most, Ty.zero]; exact this
  | .ptr t, o => by
    simp only [least, Bounded, most, if_true]
    unfold decCore
    exact Spans.map _ (core_spans hv t o)
  | .slice t, o => by
    have body : ∀ l : Int, Spans e 0 false 0 (if e = .borsh ∧ l = 0 then Pure.pure (Val.seq none) else do
        let d ← M.get
        if l > d.remaining then M.err .eof
        else
          match t.uintKind with
          | some w => do
            let xs ← readUints l w
            Pure.pure (Val.seq (some xs))
          | none => do
            let xs ← repeatM (do setCurD .le; decCore e t {} t.zero) l.toNat
            Pure.pure (Val.seq (some xs))) := by
      intro l
      refine .ite (fun _ => .pure _) fun _ => .get fun d => .ite (fun _ => .err _) fun _ => ?_
      split
      · exact Spans.map _ ((uints_spans _ _).weaken (Nat.zero_le _) (by simp))
      · exact Spans.map _ ((((core_spans hv t {}).set).times _).weaken (Nat.zero_le _) (by simp))
    simp only [Bounded]
    refine Spans.weaken (lo := least true e (.slice t) o.sizeOf.isSome) (b := false) (hi := 0) ?_ (Nat.le_refl _) (by simp)
    unfold decCore
    cases ho : o.sizeOf with
    | some s =>
      simp only [ho, least, Option.isSome_some, if_true]
      exact body s
    | none =>
      simp only [ho, least, Option.isSome_none, Bool.false_eq_true, if_false]
      have h1 : Spans e (prefixLeast e) false 0 (readSeqLen e) := (seqLen_least hv).spans fun _ _ h => ⟨h, by simp⟩
      exact (h1.bind fun n => body (n : Int))
  | .array n t, o => by
    unfold decCore
    simp only [least, Bounded, most]
    cases hk : t.uintKind with
    | some w => exact (Spans.map _ (uints_spans n w)).weaken (by rw [Int.toNat_natCast]; exact Nat.le_refl _) fun _ => ⟨rfl, by rw [Int.toNat_natCast]; exact Nat.le_refl _⟩
    | none =>
      have := Spans.each (e := e) (lo := least true e t false) (b := Bounded e t) (hi := most true e t)
        (f := fun x => do setCurD .le; decCore e t {} x) (Val.elems n t (Ty.array n t).zero) fun x hx => by
          simp only [Ty.zero, Val.elems, List.mem_replicate] at hx
          rw [hx.2]
          exact (core_spans hv t {}).set
      have hl : (Val.elems n t (Ty.array n t).zero).length = n := by simp [Ty.zero, Val.elems]
      rw [hl] at this
      exact Spans.map _ this
  | .map k t, o => by
    unfold decCore
    simp only [least, Bounded]
    have h1 : Spans e (prefixLeast e) false 0 (readSeqLen e) := (seqLen_least hv).spans fun _ _ h => ⟨h, by simp⟩
    refine (h1.bind (lo2 := 0) (b2 := false) (hi2 := 0) fun l => .ite (fun _ => .pure _) fun _ => ?_).weaken (Nat.le_refl _) (by simp)
    refine Spans.map _ (((Spans.set (((core_spans hv k {}).weaken (lo1 := 0) (Nat.zero_le _) (b1 := false) (hi1 := 0) (by simp)).bind fun x =>
      Spans.set (Spans.map _ ((core_spans hv t {}).weaken (lo1 := 0) (Nat.zero_le _) (b1 := false) (hi1 := 0) (by simp))))).times _).weaken (Nat.zero_le _) (by simp))
  | .struct fs, o => by
    unfold decCore decStruct
    simp only [least, Bounded, most]
    by_cases hb : e = .borsh ∧ fs.isEnum = true
    · have hb' : (e == .borsh && fs.isEnum) = true := by simp [hb.1, hb.2]
      have h8 : Spans e 1 true 1 readUint8 := readUint8_took.exact fun bs n h => by rw [h.2, fixed_length]
      simp only [if_pos hb]
      rw [hb']
      refine (h8.bind (lo2 := leastVariant true e fs) (b2 := BoundedFields e true fs) (hi2 := mostVariant true e fs) fun tag => ?_).weaken
        (Nat.le_refl _) (by intro h; exact ⟨by simpa using h, Nat.le_refl _⟩)
      exact .ite (fun _ => .err _) fun _ => Spans.map _ (variant_spans hv fs tag)
    · have hb' : (e == .borsh && fs.isEnum) = false := by
        rw [Bool.eq_false_iff]; simpa using hb
      simp only [if_neg hb]
      rw [hb']
      exact Spans.map _ (fields_spans hv fs [] false [] (by simp))
  | .iface, o => Spans.pure _
  | .bool, o => plain_spans _ o (by simp)
  | .uint w _, o => plain_spans _ o (by simp)
  | .int w _, o => plain_spans _ o (by simp)
  | .borshEnum, o => plain_spans _ o (by simp)
  | .f32, o => plain_spans _ o (by simp)
  | .f64, o => plain_spans _ o (by simp)
  | .str, o => by
    have := str_spans hv o
    simp only [least, Bounded]; exact this.weaken (Nat.le_refl _) (by simp)
  | .plainInt, o => Spans.err _
  | .plainUint, o => Spans.err _
  | .other, o => Spans.err _
theorem fields_spans (hv : e.valid = true) : (fs : Fields) → (sm : List (Bytes × Int)) → (seen : Bool) → (names : List Bytes) →
    (∀ x ∈ sm, x.1 ∈ names) → Spans e (leastFields true e fs names) (BoundedFields e false fs) (mostFields true e fs) (decFields e fs sm seen fs.zeros)
  | .nil, sm, seen, names, _ => Spans.pure _
  | .cons m t fs, sm, seen, names, hs => by
    have ha : ∀ x ∈ sm, x.1 ∈ announced m names := fun x hx => by
      unfold announced; split
      · exact hs x hx
      · exact List.mem_cons_of_mem _ (hs x hx)
    have rest : ∀ sm' seen', (∀ x ∈ sm', x.1 ∈ announced m names) →
        Spans e (leastFields true e fs (announced m names)) (BoundedFields e false fs) (mostFields true e fs) (decFields e fs sm' seen' fs.zeros) :=
      fun sm' seen' h => fields_spans hv fs sm' seen' _ h
    have field : ∀ seen', Spans e ((if true && e == .borsh && t.directLib.isSome then least true e t false
          else if m.tag.option then flagBytes e else if e = .borsh ∧ m.tag.coption then 4
          else least true e t ((announced m names).contains m.name)) + leastFields true e fs (announced m names))
        (Bounded e t && BoundedFields e false fs)
        ((if m.tag.option then flagBytes e else 0) + (if e = .borsh ∧ m.tag.coption then 4 else 0) + most true e t + mostFields true e fs)
        (match (if e = Encoding.borsh then t.directLib else none) with
          | some (l, isPtr) => do
            let x ← unmarshalLib l l.zero
            let rest ← decFields e fs sm seen' fs.zeros
            Pure.pure ((if isPtr then .ptr (some x) else x) :: rest)
          | none => do
            let x ← decField e t (fieldOpt m sm) t.zero (decCore e t (fieldOpt m sm) t.zero)
            let sm ← recordSize m t x sm
            let rest ← decFields e fs sm seen' fs.zeros
            Pure.pure (x :: rest)) := by
      intro seen'
      cases hd : (if e = Encoding.borsh then t.directLib else none) with
      | some p =>
        obtain ⟨l, isPtr⟩ := p
        have hb : e = .borsh ∧ t.directLib = some (l, isPtr) := by
          by_cases hb : e = .borsh
          · exact ⟨hb, by rw [← hd, if_pos hb]⟩
          · rw [if_neg hb] at hd; cases hd
        have hl : (true && e == .borsh && t.directLib.isSome) = true := by simp [hb.1, hb.2]
        rw [if_pos hl]
        refine ((lib_spans hv l _).bind fun x => Spans.map _ (rest sm seen' ha)).weaken ?_ ?_
        · rcases directLib_cases hb.2 with ⟨rfl, -⟩ | ⟨rfl, -⟩ <;> simp only [least, if_true] <;> exact Nat.le_refl _
        · intro h
          rcases directLib_cases hb.2 with ⟨rfl, -⟩ | ⟨rfl, -⟩ <;> simp only [Bounded] at h <;> simp only [most] <;> exact ⟨h, by omega⟩
      | none =>
        have hl : ¬ (true && e == .borsh && t.directLib.isSome) = true := by
          intro h
          simp only [Bool.true_and, Bool.and_eq_true, beq_iff_eq] at h
          rw [if_pos h.1] at hd
          rw [hd] at h; simp at h
        rw [if_neg hl]
        have hF : Spans e (if m.tag.option then flagBytes e else if e = .borsh ∧ m.tag.coption then 4 else least true e t (lookupSize m.name sm).isSome)
            (Bounded e t) ((if m.tag.option then flagBytes e else 0) + (if e = .borsh ∧ m.tag.coption then 4 else 0) + most true e t)
            (decField e t (fieldOpt m sm) t.zero (decCore e t (fieldOpt m sm) t.zero)) :=
          field_spans hv t (fieldOpt m sm) t.zero _ (core_spans hv t (fieldOpt m sm))
        refine (hF.bind fun x =>
          record_spans m t x sm names hs fun sm' hs' => Spans.map _ (rest sm' seen' hs')).weaken ?_ ?_
        · refine Nat.add_le_add_right ?_ _
          by_cases ho : m.tag.option = true
          · simp only [if_pos ho]; exact Nat.le_refl _
          · by_cases hco : e = .borsh ∧ m.tag.coption = true
            · simp only [if_neg ho, if_pos hco]; exact Nat.le_refl _
            · simp only [if_neg ho, if_neg hco]
              cases hl : (lookupSize m.name sm).isSome with
              | false =>
                cases (announced m names).contains m.name
                · exact Nat.le_refl _
                · exact least_sized t _
              | true => rw [lookupSize_names ha hl]; exact Nat.le_refl _
        · intro h
          exact ⟨h, Nat.le_refl _⟩
    unfold decFields leastFields mostFields BoundedFields Fields.zeros
    simp only [Bool.not_false, Bool.true_and]
    by_cases hk : m.tag.skip = true
    · simp only [hk, if_true, Bool.true_or, Bool.true_and, Nat.zero_add]
      exact Spans.map _ (fields_spans hv fs sm seen names hs)
    · simp only [Bool.not_eq_true] at hk
      simp only [hk, Bool.false_eq_true, if_false, Bool.false_or]
      refine .ite (fun _ => .panic) fun _ => ?_
      have ext : ∀ {α : Type} {lo hi : Nat} {b : Bool} {f : Bool → DM α}, (∀ x, Spans e lo b hi (f x)) → Spans e lo b hi (extensionEnds m >>= f) := by
        intro α lo hi b f h
        unfold extensionEnds
        split
        · intro d a d' ho he hr
          simp only [noBytesLeft, M.bind_apply, restM] at hr
          rw [if_pos (show 0 ≤ d.pos ∧ d.pos ≤ d.data.length from ho)] at hr
          exact h _ d a d' ho he hr
        · exact h false
      cases hx : m.exported with
      | false =>
        simp only [Bool.false_and, Bool.false_eq_true, if_false, Bool.not_false, if_true, Bool.true_or, Bool.true_and, Nat.zero_add, Bool.or_true]
        exact ext fun _ => Spans.map _ (rest sm _ ha)
      | true =>
        simp only [Bool.true_and, Bool.not_true, Bool.false_eq_true, if_false, Bool.false_or, Bool.or_false]
        cases hbx : m.tag.binExt with
        | true =>
          simp only [Bool.not_true, Bool.false_eq_true, if_false, Nat.zero_add]
          refine ext fun x => .ite (fun _ => (Spans.map _ (rest sm _ ha)).weaken (Nat.le_refl _) ?_) fun _ => (field _).weaken (by omega) ?_
          · intro h; rw [Bool.and_eq_true] at h; exact ⟨h.2, by omega⟩
          · intro h; exact ⟨h, by omega⟩
        | false =>
          have he : extensionEnds m = Pure.pure false := by simp [extensionEnds, hbx]
          rw [he]
          simp only [Bool.not_false, if_true]
          exact (field _).weaken (Nat.le_refl _) fun h => ⟨h, by omega⟩
theorem nth_spans (hv : e.valid = true) : (fs : Fields) → (i : Nat) →
    Spans e (leastOf true e fs) (BoundedFields e true fs) (mostOf true e fs) (decNth e fs i fs.zeros)
  | .nil, _ => .panic
  | .cons m t fs, 0 => by
    unfold decNth Fields.zeros
    simp only []
    refine ((Spans.map _ (core_spans hv t {})).set).weaken ?_ ?_
    · cases fs <;> simp only [leastOf, Option.isSome] <;> omega
    · intro h
      simp only [BoundedFields, Bool.not_true, Bool.false_and, Bool.false_or, Bool.and_eq_true] at h
      exact ⟨h.1, by simp only [mostOf]; omega⟩
  | .cons m t .nil, i + 1 => by
    unfold decNth Fields.zeros
    simp only []
    exact Spans.map _ (show Spans e _ _ _ (decNth e .nil i Fields.nil.zeros) by unfold decNth; exact .panic)
  | .cons m t (.cons m' t' fs), i + 1 => by
    have := nth_spans hv (.cons m' t' fs) i
    unfold decNth Fields.zeros
    simp only []
    refine (Spans.map _ this).weaken ?_ ?_
    · simp only [leastOf]; omega
    · intro h
      rw [BoundedFields, Bool.and_eq_true] at h
      exact ⟨h.2, by rw [mostOf.eq_def true e (.cons m t _)]; exact Nat.le_max_right _ _⟩
theorem variant_spans (hv : e.valid = true) : (fs : Fields) → (i : Nat) →
    Spans e (leastVariant true e fs) (BoundedFields e true fs) (mostVariant true e fs) (decNth e fs (i + 1) fs.zeros)
  | .nil, _ => .panic
  | .cons m t fs, i => by
    have := nth_spans hv fs i
    unfold decNth Fields.zeros leastVariant mostVariant
    simp only []
    refine (Spans.map _ this).weaken (Nat.le_refl _) ?_
    intro h
    rw [BoundedFields, Bool.and_eq_true] at h
    exact ⟨h.2, Nat.le_refl _⟩
end

/-- From the core to `Decode`. -/
theorem size_decode (hv : e.valid = true) (t : Ty) : Spans e (least true e t false) (Bounded e t) (most true e t) (decode t t.zero) := by
  intro d v d' ho he hr
  unfold decode at hr
  rw [M.bind_apply, M.get_apply] at hr
  simp only [] at hr
  rw [if_neg (by rw [he]; intro h0; rw [h0] at hv; cases hv), he] at hr
  exact (core_spans hv t {}).set (o := .le) d v d' ho he hr
end
end Verif
