import Verif.Spec.Alike
/-!
# Proofs: two runs side by side

`InStep R m m'`: started in related states, `m` and `m'` return the same and end in related states.
-/
namespace Verif
open Spec
section
variable {σ α β γ : Type} {R : σ → σ → Prop} {m m' : M σ α} {f f' : α → M σ β}

def InStep (R : σ → σ → Prop) (m m' : M σ α) : Prop := ∀ s s', R s s' → (m s).1 = (m' s').1 ∧ R (m s).2 (m' s').2

theorem InStep.pure (a : α) : InStep R (Pure.pure a) (Pure.pure a) := fun _ _ h => ⟨rfl, h⟩
theorem InStep.err (x : Err) : InStep R (M.err x : M σ α) (M.err x) := fun _ _ h => ⟨rfl, h⟩
theorem InStep.panic : InStep R (M.panic : M σ α) M.panic := fun _ _ h => ⟨rfl, h⟩
theorem InStep.lift (r : Res α) : InStep R (M.lift r) (M.lift r) := fun _ _ h => ⟨rfl, h⟩

theorem InStep.bind (h : InStep R m m') (hf : ∀ a, InStep R (f a) (f' a)) : InStep R (m >>= f) (m' >>= f') := by
  intro s s' hs
  obtain ⟨h1, h2⟩ := h s s' hs
  rw [M.bind_apply, M.bind_apply]
  rcases hm : m s with ⟨r, t⟩
  rcases hm' : m' s' with ⟨r', t'⟩
  rw [hm, hm'] at h1 h2
  simp only at h1 h2
  subst h1
  cases r with
  | ok a => exact hf a _ _ h2
  | err x => exact ⟨rfl, h2⟩
  | panic => exact ⟨rfl, h2⟩

theorem InStep.known (a : α) (h : InStep R (f a) (f' a)) : InStep R (Pure.pure a >>= f) (Pure.pure a >>= f') := h

theorem InStep.get {f f' : σ → M σ β} (hf : ∀ s s', R s s' → InStep R (f s) (f' s')) : InStep R (M.get >>= f) (M.get >>= f') :=
  fun s s' hs => hf s s' hs s s' hs

theorem InStep.modify {g : σ → σ} (hg : ∀ s s', R s s' → R (g s) (g s')) : InStep R (M.modify g) (M.modify g) :=
  fun s s' hs => ⟨rfl, hg s s' hs⟩

theorem InStep.ite {c : Prop} [Decidable c] {m₂ m₂' : M σ α} (h : c → InStep R m m') (h' : ¬ c → InStep R m₂ m₂') :
    InStep R (if c then m else m₂) (if c then m' else m₂') := by
  split
  · exact h ‹_›
  · exact h' ‹_›

theorem InStep.repeat (h : InStep R m m') : ∀ n, InStep R (repeatM m n) (repeatM m' n)
  | 0 => .pure _
  | n + 1 => h.bind fun a => (InStep.repeat h n).bind fun _ => .pure _

theorem InStep.traverse {f f' : β → M σ α} : ∀ xs : List β, (∀ x ∈ xs, InStep R (f x) (f' x)) → InStep R (traverseM f xs) (traverseM f' xs)
  | [], _ => .pure _
  | x :: xs, h => (h x (by simp)).bind fun _ => (InStep.traverse xs fun y hy => h y (by simp [hy])).bind fun _ => .pure _

theorem InStep.index {f f' : β → M σ Unit} (h : ∀ x, InStep R (f x) (f' x)) : ∀ n xs, InStep R (forIndexM f n xs) (forIndexM f' n xs)
  | 0, _ => .pure _
  | _ + 1, [] => .panic
  | n + 1, x :: xs => (h x).bind fun _ => InStep.index h n xs
end

/-! ### decoding -/

variable {e e' : Encoding}

/-- Decoders for the two encodings at the same place; next to Borsh the current order is little endian. -/
structure Beside (e e' : Encoding) (d d' : Dec) : Prop where
  enc : d.enc = e
  enc' : d'.enc = e'
  data : d'.data = d.data
  pos : d'.pos = d.pos
  cur : d'.cur = d.cur
  le : oneIs .borsh e e' = true → d.cur = some .le

theorem Beside.remaining {d d' : Dec} (h : Beside e e' d d') : d'.remaining = d.remaining := by
  simp [Dec.remaining, h.data, h.pos]

theorem restM_alike : InStep (Beside e e') restM restM := by
  intro d d' h
  simp only [restM, h.pos, h.data]
  split
  · exact ⟨rfl, h⟩
  · exact ⟨rfl, h⟩

theorem sliceM_alike (n : Int) : InStep (Beside e e') (sliceM n) (sliceM n) := by
  intro d d' h
  simp only [sliceM, h.pos, h.data]
  split
  · exact ⟨rfl, h⟩
  · exact ⟨rfl, h⟩

theorem advance_alike (n : Int) : InStep (Beside e e') (advance n) (advance n) :=
  .modify fun d d' h => ⟨h.enc, h.enc', h.data, by simp [h.pos], h.cur, h.le⟩

theorem setCurD_alike {o : Order} (ho : oneIs .borsh e e' = true → o = .le) : InStep (Beside e e') (setCurD o) (setCurD o) :=
  .modify fun d d' h => ⟨h.enc, h.enc', h.data, h.pos, rfl, fun hb => by simp [ho hb]⟩

theorem readByte_alike : InStep (Beside e e') readByte readByte := by
  refine .get fun d d' h => ?_
  rw [h.remaining]
  refine .ite (fun _ => .err _) fun _ => restM_alike.bind fun b => ?_
  cases b with
  | nil => exact .panic
  | cons x _ => exact (advance_alike 1).bind fun _ => .pure _

theorem readUint8_alike : InStep (Beside e e') readUint8 readUint8 := readByte_alike.bind fun _ => .pure _
theorem readInt8_alike : InStep (Beside e e') readInt8 readInt8 := readByte_alike.bind fun _ => .pure _
theorem readBool_alike : InStep (Beside e e') readBool readBool := by
  refine .get fun d d' h => ?_
  rw [h.remaining]
  exact .ite (fun _ => .err _) fun _ => readByte_alike.bind fun _ => .pure _

theorem readUint16_alike (o : Order) : InStep (Beside e e') (readUint16 o) (readUint16 o) := by
  refine .get fun d d' h => ?_
  rw [h.remaining]
  exact .ite (fun _ => .err _) fun _ => restM_alike.bind fun _ => (InStep.lift _).bind fun _ => (advance_alike _).bind fun _ => .pure _
theorem readUint32_alike (o : Order) : InStep (Beside e e') (readUint32 o) (readUint32 o) := by
  refine .get fun d d' h => ?_
  rw [h.remaining]
  exact .ite (fun _ => .err _) fun _ => restM_alike.bind fun _ => (InStep.lift _).bind fun _ => (advance_alike _).bind fun _ => .pure _
theorem readNBytes_alike (n : Int) : InStep (Beside e e') (readNBytes n) (readNBytes n) := by
  refine .ite (fun _ => .pure _) fun _ => .ite (fun _ => .err _) fun _ => .get fun d d' h => ?_
  rw [h.pos, h.data]
  exact .ite (fun _ => .err _) fun _ => (sliceM_alike n).bind fun _ => (advance_alike n).bind fun _ => .pure _
theorem readUint64_alike (o : Order) : InStep (Beside e e') (readUint64 o) (readUint64 o) := by
  refine .get fun d d' h => ?_
  rw [h.remaining]
  exact .ite (fun _ => .err _) fun _ => (readNBytes_alike 8).bind fun _ => .lift _
theorem readInt16_alike (o : Order) : InStep (Beside e e') (readInt16 o) (readInt16 o) := (readUint16_alike o).bind fun _ => .pure _
theorem readInt32_alike (o : Order) : InStep (Beside e e') (readInt32 o) (readInt32 o) := (readUint32_alike o).bind fun _ => .pure _
theorem readInt64_alike (o : Order) : InStep (Beside e e') (readInt64 o) (readInt64 o) := (readUint64_alike o).bind fun _ => .pure _
theorem readUint128_alike (o : Order) : InStep (Beside e e') (readUint128 o) (readUint128 o) := by
  refine .get fun d d' h => ?_
  rw [h.remaining]
  refine .ite (fun _ => .err _) fun _ => (sliceM_alike 16).bind fun data => ?_
  cases o <;> exact ((InStep.lift _).bind fun _ => (InStep.lift _).bind fun _ => (advance_alike 16).bind fun _ => .pure _)
theorem readUvarint64_alike : InStep (Beside e e') readUvarint64 readUvarint64 :=
  restM_alike.bind fun _ => .ite (fun _ => .err _) fun _ => (advance_alike _).bind fun _ => .pure _
theorem readVarint64_alike : InStep (Beside e e') readVarint64 readVarint64 :=
  restM_alike.bind fun _ => .ite (fun _ => .err _) fun _ => (advance_alike _).bind fun _ => .pure _

theorem not_borsh (h : oneIs .borsh e e' = false) : e ≠ .borsh ∧ e' ≠ .borsh := by
  simpa [oneIs] using h

theorem readFloat32_alike (h : oneIs .borsh e e' = false) (o : Order) : InStep (Beside e e') (readFloat32 o) (readFloat32 o) := by
  obtain ⟨h1, h2⟩ := not_borsh h
  refine .get fun d d' hd => ?_
  rw [hd.remaining, hd.enc, hd.enc']
  refine .ite (fun _ => .err _) fun _ => restM_alike.bind fun _ => (InStep.lift _).bind fun n => (advance_alike _).bind fun _ => ?_
  rw [if_neg (by simp [h1]), if_neg (by simp [h2])]
  exact .pure _
theorem readFloat64_alike (h : oneIs .borsh e e' = false) (o : Order) : InStep (Beside e e') (readFloat64 o) (readFloat64 o) := by
  obtain ⟨h1, h2⟩ := not_borsh h
  refine .get fun d d' hd => ?_
  rw [hd.remaining, hd.enc, hd.enc']
  refine .ite (fun _ => .err _) fun _ => restM_alike.bind fun _ => (InStep.lift _).bind fun n => (advance_alike _).bind fun _ => ?_
  rw [if_neg (by simp [h1]), if_neg (by simp [h2])]
  exact .pure _

theorem readUints_alike (l : Int) (w : Width) : InStep (Beside e e') (readUints l w) (readUints l w) := by
  refine .get fun d d' h => ?_
  rw [h.remaining]
  refine .ite (fun _ => .err _) fun _ => ?_
  cases w with
  | w8 => exact (readNBytes_alike l).bind fun _ => .pure _
  | w16 => exact .ite (fun _ => .panic) fun _ => (InStep.repeat (readUint16_alike _) _).bind fun _ => .pure _
  | w32 => exact .ite (fun _ => .panic) fun _ => (InStep.repeat (readUint32_alike _) _).bind fun _ => .pure _
  | w64 => exact .ite (fun _ => .panic) fun _ => (InStep.repeat (readUint64_alike _) _).bind fun _ => .pure _

theorem readFlag_alike (h : oneIs .bin e e' = false) (he : e.valid = true) (he' : e'.valid = true) :
    InStep (Beside e e') (readFlag e) (readFlag e') := by
  have h1 : ∀ x : Encoding, x ≠ .bin → readFlag x = readOption := by
    intro x hx
    cases x <;> first | rfl | exact absurd rfl hx
  simp only [oneIs, Bool.or_eq_false_iff, beq_eq_false_iff_ne] at h
  rw [h1 e h.1, h1 e' h.2]
  exact readByte_alike.bind fun _ => .pure _

/-- A library value is decoded alike into any two variables, except the empty variant. -/
theorem unmarshalLib_alike {l : Lib} (h : alikeLib e e' l = true) {old old' : Val} (ho : oneIs .borsh e e' = true ∨ old = old') :
    InStep (Beside e e') (unmarshalLib l old) (unmarshalLib l old') := by
  cases l with
  | safeString => cases h
  | hexBytes => cases h
  | bool => exact readBool_alike.bind fun _ => .pure _
  | varint16 => exact (readVarint64_alike.bind fun _ => .pure _).bind fun _ => .pure _
  | varint32 => exact (readVarint64_alike.bind fun _ => .pure _).bind fun _ => .pure _
  | varuint16 => exact (readUvarint64_alike.bind fun _ => .pure _).bind fun _ => .pure _
  | varuint32 => exact readUvarint64_alike.bind fun _ => .pure _
  | jsonFloat64 =>
    refine .get fun d d' hd => ?_
    rw [hd.cur]
    cases d.cur with
    | none => exact .panic
    | some o => exact (readFloat64_alike (by simpa [alikeLib] using h) o).bind fun _ => .pure _
  | int64 =>
    refine .get fun d d' hd => ?_
    rw [hd.cur]
    cases d.cur with
    | none => exact .panic
    | some o => exact (readInt64_alike o).bind fun _ => .pure _
  | uint64 =>
    refine .get fun d d' hd => ?_
    rw [hd.cur]
    cases d.cur with
    | none => exact .panic
    | some o => exact (readUint64_alike o).bind fun _ => .pure _
  | uint128 =>
    refine .get fun d d' hd => ?_
    have : order128 d.cur old.endianness = order128 d'.cur old'.endianness := by
      rcases ho with ho | ho
      · rw [hd.cur, hd.le ho]; rfl
      · rw [hd.cur, ho]
    rw [this]
    exact (readUint128_alike _).bind fun _ => .pure _
  | int128 =>
    refine .get fun d d' hd => ?_
    have : order128 d.cur old.endianness = order128 d'.cur old'.endianness := by
      rcases ho with ho | ho
      · rw [hd.cur, hd.le ho]; rfl
      · rw [hd.cur, ho]
    rw [this]
    exact (readUint128_alike _).bind fun _ => .pure _
  | float128 =>
    refine .get fun d d' hd => ?_
    have : order128 d.cur old.endianness = order128 d'.cur old'.endianness := by
      rcases ho with ho | ho
      · rw [hd.cur, hd.le ho]; rfl
      · rw [hd.cur, ho]
    rw [this]
    exact (readUint128_alike _).bind fun _ => .pure _
  | emptyVariant =>
    rcases ho with ho | ho
    · simp [alikeLib, ho] at h
    · subst ho; exact .pure _

/-- With a current order, only the empty variant depends on the old value. -/
theorem unmarshalLib_old {l : Lib} (hl : l ≠ .emptyVariant) {d : Dec} {o : Order} (hd : d.cur = some o) (v w : Val) :
    unmarshalLib l v d = unmarshalLib l w d := by
  cases l <;> first | rfl | (simp only [unmarshalLib, M.bind_apply, M.get_apply, hd, order128]; done) | exact absurd rfl hl

theorem plain_alike {k : Kind} (h : k = .string → False) (hf : k = .f32 ∨ k = .f64 → oneIs .borsh e e' = false) {o : Opt}
    (ho : oneIs .borsh e e' = true → o.order = .le) : InStep (Beside e e') (decPlain e k o) (decPlain e' k o) := by
  have key : (if e = .borsh then Order.le else o.order) = (if e' = .borsh then Order.le else o.order) := by
    cases hb : oneIs .borsh e e' with
    | true => rw [ho hb]; simp
    | false => obtain ⟨h1, h2⟩ := not_borsh hb; rw [if_neg h1, if_neg h2]
  unfold decPlain
  rw [key]
  cases k with
  | string => exact (h rfl).elim
  | uint w =>
    cases w
    · exact readByte_alike.bind fun _ => .pure _
    · exact (readUint16_alike _).bind fun _ => .pure _
    · exact (readUint32_alike _).bind fun _ => .pure _
    · exact (readUint64_alike _).bind fun _ => .pure _
  | int w =>
    cases w
    · exact readInt8_alike.bind fun _ => .pure _
    · exact (readInt16_alike _).bind fun _ => .pure _
    · exact (readInt32_alike _).bind fun _ => .pure _
    · exact (readInt64_alike _).bind fun _ => .pure _
  | f32 => exact (readFloat32_alike (hf (.inl rfl)) _).bind fun _ => .pure _
  | f64 => exact (readFloat64_alike (hf (.inr rfl)) _).bind fun _ => .pure _
  | bool => exact readBool_alike.bind fun _ => .pure _
  | _ => exact .panic


theorem field_alike (he : e.valid = true) (he' : e'.valid = true) {t : Ty} {o : Opt} {old : Val} {core core' : DM Val}
    (hb : o.optional = true → oneIs .bin e e' = false) (hc : oneIs .borsh e e' = true → o.coptional = false ∧ o.order = .le)
    (h : InStep (Beside e e') core core') :
    InStep (Beside e e') (decField e t o old core) (decField e' t o old core') := by
  have key : ∀ x, x = e ∨ x = e' → ¬ (x = .borsh ∧ o.coptional = true) := by
    rintro x hx ⟨rfl, h2⟩
    have : oneIs .borsh e e' = true := by rcases hx with rfl | rfl <;> simp [oneIs]
    rw [(hc this).1] at h2
    cases h2
  have key1 := key e (.inl rfl)
  have key2 := key e' (.inr rfl)
  unfold decField
  simp only [if_neg key1, if_neg key2]
  refine (setCurD_alike fun hb => (hc hb).2).bind fun _ => ?_
  refine .ite (fun h1 => .ite (fun _ => .panic) fun _ => ?_) fun _ => h
  exact (readFlag_alike (hb h1) he he').bind fun p => .ite (fun _ => h) fun _ => .pure _

theorem extensionEnds_alike (m : FieldMeta) : InStep (Beside e e') (extensionEnds m) (extensionEnds m) :=
  .ite (fun _ => restM_alike.bind fun _ => .pure _) fun _ => .pure _

/-- The lengths announced so far are known. -/
def Known (names : List Bytes) (sm : List (Bytes × Int)) : Prop := ∀ n ∈ names, (lookupSize n sm).isSome = true

theorem Known.more {names : List Bytes} {sm : List (Bytes × Int)} (h : Known names sm) (b : Bytes) (x : Int) :
    Known names ((b, x) :: sm) := by
  intro n hn
  rw [lookupSize]
  split
  · rfl
  · exact h n hn

theorem Known.counts {names : List Bytes} {sm : List (Bytes × Int)} (h : Known names sm) (m : FieldMeta) (x : Int) :
    Known (Spec.counts m names) ((m.tag.sizeOf, x) :: sm) := by
  have h1 := h.more m.tag.sizeOf x
  unfold Spec.counts
  split
  · intro n hn
    rcases List.mem_cons.mp hn with rfl | hn
    · simp [lookupSize]
    · exact h1 n hn
  · exact h1

theorem Known.same {names : List Bytes} {sm : List (Bytes × Int)} (h : Known names sm) {m : FieldMeta}
    (hm : m.tag.sizeOf = [] ∨ m.exported = false ∨ m.tag.binExt = true) : Known (Spec.counts m names) sm := by
  unfold Spec.counts
  rw [if_neg]
  · exact h
  · rcases hm with hm | hm | hm <;> simp [hm]

mutual
theorem core_alike (he : e.valid = true) (he' : e'.valid = true) : (t : Ty) → (sized : Bool) → (o : Opt) → (old : Val) →
    alike e e' t sized = true → (sized = true → o.sizeOf.isSome = true) → (oneIs .borsh e e' = true → o.order = .le) →
    InStep (Beside e e') (decCore e t o old) (decCore e' t o old)
  | .str, _, _, _, h, _, _ => by simp [alike] at h
  | .map _ _, _, _, _, h, _, _ => by simp [alike] at h
  | .lib l, _, o, old, h, _, _ => by
    rw [alike] at h
    exact unmarshalLib_alike h (.inr rfl)
  | .ptr t, sized, o, old, h, hs, ho => by
    simp only [alike, Bool.and_eq_true] at h
    exact (core_alike he he' t sized o _ h.2 hs ho).bind fun _ => .pure _
  | .slice t, sized, o, old, h, hs, ho => by
    simp only [alike, Bool.and_eq_true, Bool.not_eq_true', Bool.or_eq_true] at h
    obtain ⟨⟨h1, h2⟩, h3⟩ := h
    obtain ⟨n1, n2⟩ := not_borsh h2
    obtain ⟨s, hso⟩ := Option.isSome_iff_exists.mp (hs h1)
    simp only [decCore, hso]
    refine (InStep.pure s).bind fun l => ?_
    rw [if_neg (fun h => n1 h.1), if_neg (fun h => n2 h.1)]
    refine .get fun d d' hd => ?_
    rw [hd.remaining]
    refine .ite (fun _ => .err _) fun _ => ?_
    cases hu : t.uintKind with
    | some w => exact (readUints_alike _ _).bind fun _ => .pure _
    | none =>
      rw [hu] at h3
      have h4 := core_alike he he' t false {} t.zero (by simpa using h3) (by simp) (fun _ => rfl)
      exact (InStep.repeat ((setCurD_alike fun _ => rfl).bind fun _ => h4) _).bind fun _ => .pure _
  | .array n t, _, o, old, h, _, _ => by
    simp only [alike, Bool.or_eq_true] at h
    simp only [decCore]
    cases hu : t.uintKind with
    | some w => exact (readUints_alike _ _).bind fun _ => .pure _
    | none =>
      rw [hu] at h
      refine (InStep.traverse _ fun x _ => ?_).bind fun _ => .pure _
      exact (setCurD_alike fun _ => rfl).bind fun _ => core_alike he he' t false {} x (by simpa using h) (by simp) (fun _ => rfl)
  | .struct fs, _, o, old, h, _, _ => by
    simp only [alike, Bool.and_eq_true, Bool.not_eq_true', Bool.and_eq_false_iff] at h
    obtain ⟨h1, h2⟩ := h
    have key : ∀ x, x = e ∨ x = e' → ¬ (x = .borsh ∧ fs.isEnum = true) := by
      rintro x hx ⟨rfl, h3⟩
      have : oneIs .borsh e e' = true := by rcases hx with rfl | rfl <;> simp [oneIs]
      rcases h1 with h1 | h1
      · rw [this] at h1; cases h1
      · rw [h3] at h1; cases h1
    simp only [decCore, decStruct, if_neg (key e (.inl rfl)), if_neg (key e' (.inr rfl))]
    exact (fields_alike he he' fs [] [] false _ h2 (by intro n hn; cases hn)).bind fun _ => .pure _
  | .iface, _, _, _, _, _, _ => .pure _
  | .bool, _, o, _, _, _, ho => plain_alike (by simp) (by simp) ho
  | .uint w _, _, o, _, _, _, ho => plain_alike (by simp) (by simp) ho
  | .int w _, _, o, _, _, _, ho => plain_alike (by simp) (by simp) ho
  | .borshEnum, _, o, _, _, _, ho => plain_alike (by simp) (by simp) ho
  | .f32, _, o, _, h, _, ho => plain_alike (by simp) (by simpa [alike] using h) ho
  | .f64, _, o, _, h, _, ho => plain_alike (by simp) (by simpa [alike] using h) ho
  | .plainInt, _, _, _, _, _, _ | .plainUint, _, _, _, _, _, _ | .other, _, _, _, _, _, _ => .err _
termination_by structural t => t
theorem fields_alike (he : e.valid = true) (he' : e'.valid = true) : (fs : Fields) → (names : List Bytes) → (sm : List (Bytes × Int)) →
    (seen : Bool) → (olds : List Val) → alikeFields e e' fs names = true → Known names sm →
    InStep (Beside e e') (decFields e fs sm seen olds) (decFields e' fs sm seen olds)
  | .nil, _, _, _, _, _, _ => .pure _
  | .cons _ _ _, _, _, _, [], _, _ => .panic
  | .cons m t fs, names, sm, seen, v :: vs, h, hk => by
    simp only [alikeFields] at h
    simp only [decFields]
    by_cases h1 : m.tag.skip = true
    · simp only [if_pos h1] at h ⊢
      exact (fields_alike he he' fs names sm seen vs h hk).bind fun _ => .pure _
    simp only [if_neg h1] at h ⊢
    simp only [Bool.and_eq_true, Bool.or_eq_true, Bool.not_eq_true', Bool.and_eq_false_iff] at h
    obtain ⟨⟨hx, hs⟩, hr⟩ := h
    refine .ite (fun _ => .panic) fun _ => ?_
    have hskip : (m.tag.binExt = true ∨ m.exported = false) →
        InStep (Beside e e') (decFields e fs sm (seen || m.tag.binExt) vs >>= fun rest => Pure.pure (v :: rest))
          (decFields e' fs sm (seen || m.tag.binExt) vs >>= fun rest => Pure.pure (v :: rest)) := fun hm =>
      (fields_alike he he' fs _ sm _ vs hr (hk.same (by rcases hm with hm | hm <;> simp [hm]))).bind fun _ => .pure _
    have main : m.exported = true → InStep (Beside e e')
        (match (if e = .borsh then t.directLib else none) with
        | some (l, isPtr) => do
          let x ← unmarshalLib l l.zero
          let rest ← decFields e fs sm (seen || m.tag.binExt) vs
          Pure.pure ((if isPtr then .ptr (some x) else x) :: rest)
        | none => do
          let x ← decField e t (fieldOpt m sm) v (decCore e t (fieldOpt m sm) v)
          let sm ← recordSize m t x sm
          let rest ← decFields e fs sm (seen || m.tag.binExt) vs
          Pure.pure (x :: rest))
        (match (if e' = .borsh then t.directLib else none) with
        | some (l, isPtr) => do
          let x ← unmarshalLib l l.zero
          let rest ← decFields e' fs sm (seen || m.tag.binExt) vs
          Pure.pure ((if isPtr then .ptr (some x) else x) :: rest)
        | none => do
          let x ← decField e' t (fieldOpt m sm) v (decCore e' t (fieldOpt m sm) v)
          let sm ← recordSize m t x sm
          let rest ← decFields e' fs sm (seen || m.tag.binExt) vs
          Pure.pure (x :: rest)) := by
      intro hex
      rcases hx with hx | ⟨⟨ha, hopt⟩, hbo⟩
      · rw [hx] at hex; cases hex
      have hle : oneIs .borsh e e' = true → m.tag.coption = false ∧ m.tag.order = .le ∧ (m.tag.option = true → t.asLib = none) ∧
          m.tag.sizeOf = [] := by
        intro hb
        simp only [hb, Bool.true_eq_false, false_or, Bool.or_eq_false_iff, beq_eq_false_iff_ne, Bool.and_eq_false_iff,
          bne_eq_false_iff_eq] at hbo hs
        refine ⟨hbo.1.1, ?_, ?_, hs⟩
        · cases ho : m.tag.order with
          | le => rfl
          | be => exact absurd ho hbo.1.2
        · intro h
          rcases hbo.2 with h' | h'
          · rw [h] at h'; cases h'
          · simpa using h'
      have plain : InStep (Beside e e') (do
          let x ← decField e t (fieldOpt m sm) v (decCore e t (fieldOpt m sm) v)
          let sm ← recordSize m t x sm
          let rest ← decFields e fs sm (seen || m.tag.binExt) vs
          Pure.pure (x :: rest)) (do
          let x ← decField e' t (fieldOpt m sm) v (decCore e' t (fieldOpt m sm) v)
          let sm ← recordSize m t x sm
          let rest ← decFields e' fs sm (seen || m.tag.binExt) vs
          Pure.pure (x :: rest)) := by
        refine (field_alike he he' ?_ ?_ (core_alike he he' t _ (fieldOpt m sm) v ha ?_ ?_)).bind fun x => ?_
        · intro ho
          rcases hopt with h' | h'
          · rw [show m.tag.option = true from ho] at h'; cases h'
          · exact h'
        · exact fun hb => ⟨(hle hb).1, (hle hb).2.1⟩
        · intro hc
          exact hk m.name (by simpa using hc)
        · exact fun hb => (hle hb).2.1
        · unfold recordSize
          by_cases hz : m.tag.sizeOf = []
          · rw [if_pos hz]
            exact InStep.known sm ((fields_alike he he' fs _ sm _ vs hr (hk.same (.inl hz))).bind fun _ => .pure _)
          · rw [if_neg hz]
            cases sizeofVal t.kind x with
            | ok n =>
              have h := (fields_alike he he' fs _ _ (seen || m.tag.binExt) vs hr (hk.counts m n)).bind
                fun rest => InStep.pure (x :: rest)
              exact h
            | err y => exact InStep.err y
            | panic => exact InStep.panic
      cases hb : oneIs .borsh e e' with
      | false =>
        obtain ⟨n1, n2⟩ := not_borsh hb
        rw [if_neg n1, if_neg n2]
        exact plain
      | true =>
        obtain ⟨hc, ho, hl, hz⟩ := hle hb
        cases hdl : t.directLib with
        | none => simpa using plain
        | some p =>
          obtain ⟨l, isPtr⟩ := p
          have ht : t = .lib l ∧ isPtr = false := by
            cases t with
            | lib l' => simpa [Ty.directLib] using hdl
            | ptr t => simp [alike, hb] at ha
            | _ => simp [Ty.directLib] at hdl
          obtain ⟨rfl, rfl⟩ := ht
          have hopt : m.tag.option = false := by
            cases hq : m.tag.option with
            | false => rfl
            | true => simp [Ty.asLib, hq] at hl
          have direct : InStep (Beside e e') (do
              let x ← unmarshalLib l l.zero
              let rest ← decFields e fs sm (seen || m.tag.binExt) vs
              Pure.pure (x :: rest)) (do
              let x ← unmarshalLib l l.zero
              let rest ← decFields e' fs sm (seen || m.tag.binExt) vs
              Pure.pure (x :: rest)) :=
            (unmarshalLib_alike (by simpa [alike] using ha) (.inr rfl)).bind fun x =>
              (fields_alike he he' fs _ sm _ vs hr (hk.same (.inl hz))).bind fun _ => .pure _
          have same : ∀ (x : Encoding) (d : Dec), d.cur = some .le → (do
              let y ← decField x (.lib l) (fieldOpt m sm) v (decCore x (.lib l) (fieldOpt m sm) v)
              let sm ← recordSize m (.lib l) y sm
              let rest ← decFields x fs sm (seen || m.tag.binExt) vs
              Pure.pure (y :: rest) : DM (List Val)) d = (do
              let y ← unmarshalLib l l.zero
              let rest ← decFields x fs sm (seen || m.tag.binExt) vs
              Pure.pure (y :: rest) : DM (List Val)) d := by
            intro x d hd
            have h1 : decField x (.lib l) (fieldOpt m sm) v (decCore x (.lib l) (fieldOpt m sm) v) d = unmarshalLib l l.zero d := by
              unfold decField
              simp only [fieldOpt, hopt, hc, Bool.false_eq_true, and_false, if_false, ho, decCore]
              show unmarshalLib l v { d with cur := some .le } = _
              have : ({ d with cur := some .le } : Dec) = d := by rw [← hd]
              rw [this]
              exact unmarshalLib_old (by rintro rfl; simp [alike, alikeLib, hb] at ha) hd v l.zero
            rw [M.bind_apply, M.bind_apply, h1]
            rcases unmarshalLib l l.zero d with ⟨r, d1⟩
            cases r with
            | ok y => simp only [recordSize, if_pos hz]; rfl
            | err y => rfl
            | panic => rfl
          intro d d' hd
          have hd' : d'.cur = some .le := by rw [hd.cur, hd.le hb]
          have := direct d d' hd
          by_cases n1 : e = .borsh <;> by_cases n2 : e' = .borsh
          · simpa [n1, n2] using this
          · simp only [if_pos n1, if_neg n2]
            rw [same e' d' hd']; exact this
          · simp only [if_neg n1, if_pos n2]
            rw [same e d (hd.le hb)]; exact this
          · simp [oneIs, n1, n2] at hb
    by_cases hbe : m.tag.binExt = true
    · refine (extensionEnds_alike m).bind fun a => .ite (fun _ => hskip (.inl hbe)) fun hn => main ?_
      cases a <;> simp_all
    · simp only [extensionEnds, if_neg hbe]
      refine InStep.known false (.ite (fun hn => hskip (.inr ?_)) fun hn => main ?_) <;> simpa using hn
termination_by structural fs => fs
end

/-! ### encoding -/

/-- Encoders for the two encodings that have written the same. -/
structure BesideE (e e' : Encoding) (s s' : Enc) : Prop where
  enc : s.enc = e
  enc' : s'.enc = e'
  count : s'.count = s.count
  log : s'.log = s.log
  cur : s'.cur = s.cur
  sink : s'.sink = s.sink

theorem toWriter_alike (b : Bytes) : InStep (BesideE e e') (toWriter b) (toWriter b) := by
  intro s s' h
  simp only [toWriter, h.sink, h.log]
  split
  · exact ⟨rfl, ⟨h.enc, h.enc', by simp [h.count], rfl, h.cur, rfl⟩⟩
  · exact ⟨rfl, ⟨h.enc, h.enc', by simp [h.count], rfl, h.cur, rfl⟩⟩

theorem setCurE_alike (o : Order) : InStep (BesideE e e') (setCurE o) (setCurE o) :=
  .modify fun _ _ h => ⟨h.enc, h.enc', h.count, h.log, rfl, h.sink⟩

theorem writeUVarInt_alike (z : Int) : InStep (BesideE e e') (writeUVarInt z) (writeUVarInt z) :=
  (InStep.lift _).bind fun _ => toWriter_alike _
theorem writeVarInt_alike (z : Int) : InStep (BesideE e e') (writeVarInt z) (writeVarInt z) :=
  (InStep.lift _).bind fun _ => toWriter_alike _
theorem writeRaw_alike (b : Bytes) : InStep (BesideE e e') (writeRaw b) (writeRaw b) := .ite (fun _ => .pure _) fun _ => toWriter_alike _
theorem writeUint128_alike (lo hi : Nat) (o : Order) : InStep (BesideE e e') (writeUint128 lo hi o) (writeUint128 lo hi o) := by
  cases o <;> exact toWriter_alike _
theorem writeInt128_alike (lo hi : Nat) (o : Order) : InStep (BesideE e e') (writeInt128 lo hi o) (writeInt128 lo hi o) := by
  cases o <;> exact toWriter_alike _
theorem writeFloat32_alike (h : oneIs .borsh e e' = false) (n : Nat) (o : Order) :
    InStep (BesideE e e') (writeFloat32 n o) (writeFloat32 n o) := by
  obtain ⟨h1, h2⟩ := not_borsh h
  refine .get fun s s' hs => ?_
  rw [hs.enc, hs.enc', if_neg (by simp [h1]), if_neg (by simp [h2])]
  exact toWriter_alike _
theorem writeFloat64_alike (h : oneIs .borsh e e' = false) (n : Nat) (o : Order) :
    InStep (BesideE e e') (writeFloat64 n o) (writeFloat64 n o) := by
  obtain ⟨h1, h2⟩ := not_borsh h
  refine .get fun s s' hs => ?_
  rw [hs.enc, hs.enc', if_neg (by simp [h1]), if_neg (by simp [h2])]
  exact toWriter_alike _

theorem writeFlag_alike (h : oneIs .bin e e' = false) (b : Bool) : InStep (BesideE e e') (writeFlag e b) (writeFlag e' b) := by
  have h1 : ∀ x : Encoding, x ≠ .bin → writeFlag x b = writeBool b := by
    intro x hx
    cases x <;> first | rfl | exact absurd rfl hx
  simp only [oneIs, Bool.or_eq_false_iff, beq_eq_false_iff_ne] at h
  rw [h1 e h.1, h1 e' h.2]
  exact toWriter_alike _

theorem writeUints_alike (l : Int) (w : Width) (xs : List Val) : InStep (BesideE e e') (writeUints l w xs) (writeUints l w xs) := by
  refine .ite (fun _ => .panic) fun _ => .ite (fun _ => .panic) fun _ => ?_
  cases mapOpt (bulkBytes w) (xs.take l.toNat) with
  | none => exact .panic
  | some bs => exact writeRaw_alike _

theorem marshalLib_alike {l : Lib} (h : alikeLib e e' l = true) (v : Val) : InStep (BesideE e e') (marshalLib l v) (marshalLib l v) := by
  have hget : ∀ f : Order → EM Unit, (∀ o, InStep (BesideE e e') (f o) (f o)) →
      InStep (BesideE e e') (do
        let s ← M.get
        match s.cur with
        | none => M.panic
        | some o => f o) (do
        let s ← M.get
        match s.cur with
        | none => M.panic
        | some o => f o) := by
    intro f hf
    refine .get fun s s' hs => ?_
    rw [hs.cur]
    cases s.cur with
    | none => exact .panic
    | some o => exact hf o
  unfold marshalLib
  split
  · cases h
  · exact toWriter_alike _
  · cases h
  · exact writeVarInt_alike _
  · exact writeUVarInt_alike _
  · exact writeUVarInt_alike _
  · exact writeVarInt_alike _
  · exact hget _ fun o => writeFloat64_alike (by simpa [alikeLib] using h) _ o
  · exact hget _ fun o => toWriter_alike _
  · exact hget _ fun o => toWriter_alike _
  · exact .get fun s s' hs => by rw [hs.cur]; exact writeUint128_alike _ _ _
  · exact .get fun s s' hs => by rw [hs.cur]; exact writeInt128_alike _ _ _
  · exact .get fun s s' hs => by rw [hs.cur]; exact writeUint128_alike _ _ _
  · exact .pure _
  · exact .panic

theorem encPlain_alike {k : Kind} (h : k = .string → False) (hf : k = .f32 ∨ k = .f64 → oneIs .borsh e e' = false) {o : Opt}
    (ho : oneIs .borsh e e' = true → o.order = .le) (v : Val) : InStep (BesideE e e') (encPlain e k o v) (encPlain e' k o v) := by
  have key : (if e = .borsh then Order.le else o.order) = (if e' = .borsh then Order.le else o.order) := by
    cases hb : oneIs .borsh e e' with
    | true => rw [ho hb]; simp
    | false => obtain ⟨h1, h2⟩ := not_borsh hb; rw [if_neg h1, if_neg h2]
  unfold encPlain
  rw [key]
  cases k with
  | string => exact (h rfl).elim
  | uint w => cases w <;> cases v <;> first | exact toWriter_alike _ | exact .panic
  | int w => cases w <;> cases v <;> first | exact toWriter_alike _ | exact .panic
  | f32 => cases v <;> first | exact writeFloat32_alike (hf (.inl rfl)) _ _ | exact .panic
  | f64 => cases v <;> first | exact writeFloat64_alike (hf (.inr rfl)) _ _ | exact .panic
  | bool => cases v <;> first | exact toWriter_alike _ | exact .panic
  | _ => exact .panic

theorem encFlags_alike {t : Ty} {o : Opt} {v : Val} (hb : o.optional = true → oneIs .bin e e' = false)
    (hc : oneIs .borsh e e' = true → o.coptional = false) :
    InStep (BesideE e e') (encFlags e t o v) (encFlags e' t o v) := by
  have key : ∀ x, x = e ∨ x = e' → ¬ (x = .borsh ∧ o.coptional = true) := by
    rintro x hx ⟨rfl, h2⟩
    have : oneIs .borsh e e' = true := by rcases hx with rfl | rfl <;> simp [oneIs]
    rw [hc this] at h2
    cases h2
  have key1 := key e (.inl rfl)
  have key2 := key e' (.inr rfl)
  unfold encFlags
  simp only [if_neg key1, if_neg key2]
  refine .ite (fun h1 => (writeFlag_alike (hb h1.1) _).bind fun _ => .pure _) fun _ => ?_
  refine .ite (fun h1 => (writeFlag_alike (hb h1) _).bind fun _ => .pure _) fun _ => .pure _

mutual
theorem encCore_alike (he : e.valid = true) (he' : e'.valid = true) : (t : Ty) → (sized : Bool) → (o : Opt) → (v : Val) →
    alike e e' t sized = true → (sized = true → o.sizeOf.isSome = true) → (oneIs .borsh e e' = true → o.order = .le) →
    InStep (BesideE e e') (encCore e t o v) (encCore e' t o v)
  | .str, _, _, _, h, _, _ => by simp [alike] at h
  | .map _ _, _, _, _, h, _, _ => by simp [alike] at h
  | .lib l, _, o, v, h, _, _ => by
    rw [alike] at h
    exact marshalLib_alike h v
  | .ptr t, sized, o, v, h, hs, ho => by
    simp only [alike, Bool.and_eq_true, Bool.not_eq_true'] at h
    obtain ⟨n1, n2⟩ := not_borsh h.1
    cases v with
    | ptr p =>
      simp only [encCore]
      cases hl : t.asLib with
      | some l =>
        cases p with
        | some x =>
          cases t <;> simp [Ty.asLib] at hl
          subst hl
          exact marshalLib_alike (by simpa [alike] using h.2) x
        | none =>
          simp only [n1, n2, false_or]
          exact .ite (fun _ => .pure _) fun _ => .panic
      | none =>
        simp only [n1, n2, if_false]
        refine (setCurE_alike _).bind fun _ => ?_
        cases p with
        | none => exact .pure _
        | some x => exact encCore_alike he he' t sized o x h.2 hs ho
    | _ => exact .panic
  | .slice t, sized, o, v, h, hs, ho => by
    simp only [alike, Bool.and_eq_true, Bool.not_eq_true', Bool.or_eq_true] at h
    obtain ⟨⟨h1, h2⟩, h3⟩ := h
    obtain ⟨s, hso⟩ := Option.isSome_iff_exists.mp (hs h1)
    cases v with
    | seq xs =>
      simp only [encCore, hso]
      refine (InStep.pure s).bind fun l => ?_
      cases hu : t.uintKind with
      | some w => exact writeUints_alike _ _ _
      | none =>
        rw [hu] at h3
        exact InStep.index (fun x => (setCurE_alike _).bind fun _ =>
          encCore_alike he he' t false {} x (by simpa using h3) (by simp) (fun _ => rfl)) _ _
    | _ => exact .panic
  | .array n t, _, o, v, h, _, _ => by
    simp only [alike, Bool.or_eq_true] at h
    cases v with
    | arr xs =>
      simp only [encCore]
      cases hu : t.uintKind with
      | some w => exact writeUints_alike _ _ _
      | none =>
        rw [hu] at h
        exact InStep.index (fun x => (setCurE_alike _).bind fun _ =>
          encCore_alike he he' t false {} x (by simpa using h) (by simp) (fun _ => rfl)) _ _
    | _ => exact .panic
  | .struct fs, _, o, v, h, _, _ => by
    simp only [alike, Bool.and_eq_true, Bool.not_eq_true', Bool.and_eq_false_iff] at h
    obtain ⟨h1, h2⟩ := h
    have key : ∀ x, x = e ∨ x = e' → ¬ (x = .borsh ∧ fs.isEnum = true) := by
      rintro x hx ⟨rfl, h3⟩
      have : oneIs .borsh e e' = true := by rcases hx with rfl | rfl <;> simp [oneIs]
      rcases h1 with h1 | h1
      · rw [this] at h1; cases h1
      · rw [h3] at h1; cases h1
    cases v with
    | struct vs =>
      simp only [encCore, encStruct, if_neg (key e (.inl rfl)), if_neg (key e' (.inr rfl))]
      exact encFields_alike he he' fs [] [] vs h2 (by intro n hn; cases hn)
    | _ => exact .panic
  | .iface, _, _, v, _, _, _ => by cases v <;> first | exact .pure _ | exact .panic
  | .bool, _, o, v, _, _, ho => encPlain_alike (by simp) (by simp) ho v
  | .uint w _, _, o, v, _, _, ho => encPlain_alike (by simp) (by simp) ho v
  | .int w _, _, o, v, _, _, ho => encPlain_alike (by simp) (by simp) ho v
  | .borshEnum, _, o, v, _, _, ho => encPlain_alike (by simp) (by simp) ho v
  | .f32, _, o, v, h, _, ho => encPlain_alike (by simp) (by simpa [alike] using h) ho v
  | .f64, _, o, v, h, _, ho => encPlain_alike (by simp) (by simpa [alike] using h) ho v
  | .plainInt, _, _, _, _, _, _ | .plainUint, _, _, _, _, _, _ | .other, _, _, _, _, _, _ => .err _
termination_by structural t => t
theorem encFields_alike (he : e.valid = true) (he' : e'.valid = true) : (fs : Fields) → (names : List Bytes) → (sm : List (Bytes × Int)) →
    (vs : List Val) → alikeFields e e' fs names = true → Known names sm →
    InStep (BesideE e e') (encFields e fs sm vs) (encFields e' fs sm vs)
  | .nil, _, _, _, _, _ => .pure _
  | .cons _ _ _, _, _, [], _, _ => .panic
  | .cons m t fs, names, sm, v :: vs, h, hk => by
    simp only [alikeFields] at h
    simp only [encFields]
    by_cases h1 : m.tag.skip = true
    · simp only [if_pos h1] at h ⊢
      exact encFields_alike he he' fs names sm vs h hk
    simp only [if_neg h1] at h ⊢
    simp only [Bool.and_eq_true, Bool.or_eq_true, Bool.not_eq_true', Bool.and_eq_false_iff] at h
    obtain ⟨⟨hx, hs⟩, hr⟩ := h
    have tail : ∀ sm, Known (counts m names) sm → (∀ n ∈ names, (lookupSize n sm).isSome = true) →
        InStep (BesideE e e') (if m.exported then do
          setCurE m.tag.order
          let more ← encFlags e t (fieldOpt m sm) v
          if more then encCore e t (fieldOpt m sm) v else Pure.pure ()
          encFields e fs sm vs
        else encFields e fs sm vs) (if m.exported then do
          setCurE m.tag.order
          let more ← encFlags e' t (fieldOpt m sm) v
          if more then encCore e' t (fieldOpt m sm) v else Pure.pure ()
          encFields e' fs sm vs
        else encFields e' fs sm vs) := by
      intro sm hsm hsm'
      have rest := encFields_alike he he' fs _ sm vs hr hsm
      refine .ite (fun hex => ?_) fun _ => rest
      rcases hx with hx | ⟨⟨ha, hopt⟩, hbo⟩
      · rw [hx] at hex; cases hex
      have hle : oneIs .borsh e e' = true → m.tag.coption = false ∧ m.tag.order = .le := by
        intro hb
        simp only [hb, Bool.true_eq_false, false_or, Bool.or_eq_false_iff, beq_eq_false_iff_ne] at hbo
        refine ⟨hbo.1.1, ?_⟩
        cases ho : m.tag.order with
        | le => rfl
        | be => exact absurd ho hbo.1.2
      refine (setCurE_alike _).bind fun _ => (encFlags_alike ?_ fun hb => (hle hb).1).bind fun more => ?_
      · intro ho
        rcases hopt with h' | h'
        · rw [show m.tag.option = true from ho] at h'; cases h'
        · exact h'
      · have body := encCore_alike he he' t _ (fieldOpt m sm) v ha (fun hc => hsm' m.name (by simpa using hc)) (fun hb => (hle hb).2)
        cases more with
        | true => exact body.bind fun _ => rest
        | false => exact rest
    unfold recordSize
    by_cases hz : m.tag.sizeOf = []
    · rw [if_pos hz]
      exact InStep.known sm (tail sm (hk.same (.inl hz)) hk)
    · rw [if_neg hz]
      cases sizeofVal t.kind v with
      | ok n =>
        have h := tail ((m.tag.sizeOf, n) :: sm) (hk.counts m n) (hk.more m.tag.sizeOf n)
        exact h
      | err y => exact InStep.err y
      | panic => exact InStep.panic
termination_by structural fs => fs
end

end Verif
