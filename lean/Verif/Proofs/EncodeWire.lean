import Verif.Proofs.WireBytes
import Verif.Proofs.Sort
/-!
The reflection encoder writes `Spec.wire`, for every type and every encodable value.
-/
set_option linter.unusedSimpArgs false
namespace Verif
open Spec

/-- The encoder after the chunks `cs`, with current field option `c`. -/
def Enc.left (s : Enc) (cs : List Bytes) (c : Option Order) : Enc := { s.push cs with cur := c }

@[simp] theorem Enc.left_enc (s : Enc) (cs c) : (s.left cs c).enc = s.enc := rfl
@[simp] theorem Enc.left_cur (s : Enc) (cs c) : (s.left cs c).cur = c := rfl
theorem Enc.NoFail.left {s : Enc} (h : s.NoFail) (cs c) : (s.left cs c).NoFail := h
@[simp] theorem Enc.left_left (s : Enc) (a b c d) : (s.left a c).left b d = s.left (a ++ b) d := by
  simp [Enc.left, Enc.push, Nat.add_assoc]
theorem Enc.push_eq_left (s : Enc) (a) : s.push a = s.left a s.cur := rfl
@[simp] theorem Enc.left_push (s : Enc) (a b c) : (s.left a c).push b = s.left (a ++ b) c := by
  simp [Enc.left, Enc.push, Nat.add_assoc]
@[simp] theorem Enc.push_left (s : Enc) (a b c) : (s.push a).left b c = s.left (a ++ b) c := by
  simp [Enc.left, Enc.push, Nat.add_assoc]

/-- On a writer that does not fail, `w` succeeds and appends exactly `bs`; it may change the current field option. -/
def EW (e : Encoding) (w : EM Unit) (bs : Bytes) : Prop :=
  ∀ s : Enc, s.enc = e → s.NoFail → ∃ cs c, cs.flatten = bs ∧ w s = (.ok (), s.left cs c)

/-- The same when the current field option says `o`. -/
def EWat (e : Encoding) (o : Order) (w : EM Unit) (bs : Bytes) : Prop :=
  ∀ s : Enc, s.enc = e → s.NoFail → s.cur = some o → ∃ cs c, cs.flatten = bs ∧ w s = (.ok (), s.left cs c)

theorem EW.at {e : Encoding} {w bs} (h : EW e w bs) (o : Order) : EWat e o w bs := fun s h1 h2 _ => h s h1 h2

theorem Writes.ew {e : Encoding} {w bs} (h : Writes e w bs) : EW e w bs := by
  intro s h1 h2
  obtain ⟨cs, h3, h4⟩ := h s h1 h2
  exact ⟨cs, s.cur, h3, h4⟩

theorem EW.pure {e : Encoding} : EW e (pure ()) [] := Writes.pure.ew

theorem EWat.set {e : Encoding} {o : Order} {w bs} (h : EWat e o w bs) : EW e (setCurE o >>= fun _ => w) bs := by
  intro s h1 h2
  obtain ⟨cs, c, h3, h4⟩ := h { s with cur := some o } h1 h2 rfl
  refine ⟨cs, c, h3, ?_⟩
  rw [M.bind_apply]
  simp only [setCurE, M.modify_apply, h4]
  rfl

theorem EWat.seq {e : Encoding} {o : Order} {w1 w2 b1 b2} (h1 : EWat e o w1 b1) (h2 : EW e w2 b2) :
    EWat e o (w1 >>= fun _ => w2) (b1 ++ b2) := by
  intro s he hf ho
  obtain ⟨c1, k1, rfl, hw1⟩ := h1 s he hf ho
  obtain ⟨c2, k2, rfl, hw2⟩ := h2 (s.left c1 k1) he (hf.left _ _)
  exact ⟨c1 ++ c2, k2, by simp, by rw [M.bind_ok hw1, hw2, Enc.left_left]⟩

theorem EW.seq {e : Encoding} {w1 w2 b1 b2} (h1 : EW e w1 b1) (h2 : EW e w2 b2) :
    EW e (w1 >>= fun _ => w2) (b1 ++ b2) := by
  intro s he hf
  obtain ⟨c1, k1, rfl, hw1⟩ := h1 s he hf
  obtain ⟨c2, k2, rfl, hw2⟩ := h2 (s.left c1 k1) he (hf.left _ _)
  exact ⟨c1 ++ c2, k2, by simp, by rw [M.bind_ok hw1, hw2, Enc.left_left]⟩

theorem EW.forIndex {e : Encoding} {α : Type} {f : α → EM Unit} {g : α → Bytes} (xs : List α)
    (h : ∀ x ∈ xs, EW e (f x) (g x)) : EW e (forIndexM f xs.length xs) (xs.flatMap g) := by
  induction xs with
  | nil => exact EW.pure
  | cons x xs ih =>
    simp only [List.length_cons, forIndexM, List.flatMap_cons]
    exact (h x (by simp)).seq (ih fun y hy => h y (by simp [hy]))

theorem EW.forEach {e : Encoding} {α : Type} {f : α → EM Unit} {g : α → Bytes} (xs : List α)
    (h : ∀ x ∈ xs, EW e (f x) (g x)) : EW e (forEachM f xs) (xs.flatMap g) := by
  induction xs with
  | nil => exact EW.pure
  | cons x xs ih =>
    simp only [forEachM, List.flatMap_cons]
    exact (h x (by simp)).seq (ih fun y hy => h y (by simp [hy]))

/-! ### library types, scalars, sequences -/

theorem writeString_ew {e : Encoding} (hv : e.valid = true) (s : Bytes) (h : s.length ≤ maxLen e) :
    EW e (writeString s) (lenPrefix e s.length ++ s) := by
  rw [lenPrefix_eq e _ (fun he => by subst he; simp only [maxLen] at h; omega)]
  exact (writeBytes_writes e hv s (by rw [← maxLen_eq]; exact h)).ew

theorem EWat.get {e : Encoding} {o : Order} {f : Enc → EM Unit} {bs : Bytes}
    (h : ∀ s : Enc, s.cur = some o → EWat e o (f s) bs) : EWat e o (M.get >>= f) bs := by
  intro s he hf ho
  rw [M.bind_ok (M.get_apply s)]
  exact h s ho s he hf ho

theorem marshalLib_w {e : Encoding} (hv : e.valid = true) (l : Lib) (o : Order) (v : Val) (h : LibEnc e l v) :
    EWat e o (marshalLib l v) (libWire e l o v) := by
  cases l <;> cases v <;> try (exact h.elim)
  case safeString.str s => exact (writeString_ew hv s h).at o
  case bool.bool b => exact (writeBool_writes e b).ew.at o
  case hexBytes.bytes b => exact (writeString_ew hv (b.getD []) h).at o
  case varint16.int z =>
    have hz : -2 ^ 15 ≤ z ∧ z < 2 ^ 15 := h
    have e1 := zig_eq z (by omega) (by omega)
    have hb : zig z < 2 ^ 56 := by unfold zig; split <;> omega
    simp only [libWire]
    rw [varint_eq _ (by omega), e1]
    exact (writeVarInt_writes e z (by omega)).ew.at o
  case varint32.int z =>
    have hz : -2 ^ 31 ≤ z ∧ z < 2 ^ 31 := h
    have e1 := zig_eq z (by omega) (by omega)
    have hb : zig z < 2 ^ 56 := by unfold zig; split <;> omega
    simp only [libWire]
    rw [varint_eq _ (by omega), e1]
    exact (writeVarInt_writes e z (by omega)).ew.at o
  case varuint16.uint n =>
    have hn : n < 2 ^ 16 := h
    simp only [libWire]
    rw [varint_eq _ (by omega)]
    exact (writeUVarInt_writes e n (by omega) (by omega)).ew.at o
  case varuint32.uint n =>
    have hn : n < 2 ^ 32 := h
    simp only [libWire]
    rw [varint_eq _ (by omega)]
    exact (writeUVarInt_writes e n (by omega) (by omega)).ew.at o
  case jsonFloat64.float n =>
    simp only [libWire, marshalLib, fixed_eq]
    refine EWat.get fun s hs => ?_
    rw [hs]
    exact (writeFloat64_writes e n o (fun hh => by have := h.2 hh.1; simp [this] at hh)).ew.at o
  case int64.int z =>
    simp only [libWire, marshalLib, fixed_eq]
    refine EWat.get fun s hs => ?_
    rw [hs]
    exact (writeInt64_writes e z o).ew.at o
  case uint64.uint n =>
    simp only [libWire, marshalLib, fixed_eq]
    refine EWat.get fun s hs => ?_
    rw [hs]
    exact (writeUint64_writes e n o).ew.at o
  case uint128.u128 lo hi en =>
    simp only [libWire, marshalLib]
    rw [fixed128_eq o lo hi h.1]
    refine EWat.get fun s hs => ?_
    rw [hs]
    exact (writeUint128_writes e lo hi o).ew.at o
  case int128.u128 lo hi en =>
    simp only [libWire, marshalLib]
    rw [fixed128_eq o lo hi h.1]
    refine EWat.get fun s hs => ?_
    rw [hs]
    exact (writeInt128_writes e lo hi o).ew.at o
  case float128.u128 lo hi en =>
    simp only [libWire, marshalLib]
    rw [fixed128_eq o lo hi h.1]
    refine EWat.get fun s hs => ?_
    rw [hs]
    exact (writeUint128_writes e lo hi o).ew.at o
  case emptyVariant.struct vs => exact EW.pure.at o

theorem f32ViaF64_eq {n : Nat} (h : ¬ signalling32 n) : f32ViaF64 n = n := by
  unfold f32ViaF64
  by_cases hn : isNaN32 n = true
  · rw [if_pos hn]
    have hb : n / 2 ^ 22 % 2 = 1 := by
      have := Nat.mod_two_eq_zero_or_one (n / 2 ^ 22)
      rcases this with h0 | h1
      · exact absurd ⟨hn, h0⟩ h
      · exact h1
    apply Nat.eq_of_testBit_eq
    intro i
    rw [Nat.testBit_or, Nat.testBit_two_pow]
    by_cases hi : 22 = i
    · subst hi
      rw [Nat.testBit_eq_decide_div_mod_eq]; simp [hb]
    · simp [hi]
  · rw [if_neg hn]

theorem uintBytes {e : Encoding} (w : Width) (o : Order) (n : Nat) :
    EW e ((encScalar e (.uint w) o (.uint n)).getD M.panic) (fixed o w.bytes n) := by
  cases w <;> simp only [encScalar, Option.getD_some, Width.bytes]
  · rw [fixed_one']; exact (writeByte_writes e _).ew
  · rw [fixed_eq]; exact (writeUint16_writes e n o).ew
  · rw [fixed_eq]; exact (writeUint32_writes e n o).ew
  · rw [fixed_eq]; exact (writeUint64_writes e n o).ew

theorem intBytes {e : Encoding} (w : Width) (o : Order) (z : Int) :
    EW e ((encScalar e (.int w) o (.int z)).getD M.panic) (fixed o w.bytes (twos w.bits z)) := by
  cases w <;> simp only [encScalar, Option.getD_some, Width.bytes, Width.bits, twos_eq]
  · rw [fixed_one']; exact (writeByte_writes e _).ew
  · rw [fixed_eq]; exact (writeInt16_writes e z o).ew
  · rw [fixed_eq]; exact (writeInt32_writes e z o).ew
  · rw [fixed_eq]; exact (writeInt64_writes e z o).ew

theorem f32Bytes {e : Encoding} (o : Order) (n : Nat) (h1 : ¬ signalling32 n) (h2 : e = .borsh → isNaN32 n = false) :
    EW e ((encScalar e .f32 o (.float n)).getD M.panic) (fixed o 4 n) := by
  simp only [encScalar, Option.getD_some, f32ViaF64_eq h1, fixed_eq]
  exact (writeFloat32_writes e n o (fun hh => by simp [h2 hh.1] at hh)).ew

theorem f64Bytes {e : Encoding} (k : Kind) (hk : k = .f64) (o : Order) (n : Nat) (h2 : e = .borsh → isNaN64 n = false) :
    EW e ((encScalar e k o (.float n)).getD M.panic) (fixed o 8 n) := by
  subst hk
  simp only [encScalar, Option.getD_some, fixed_eq]
  exact (writeFloat64_writes e n o (fun hh => by simp [h2 hh.1] at hh)).ew

theorem strBytes {e : Encoding} (hv : e.valid = true) (o : Order) (s : Bytes) (h : s.length ≤ maxStr e) :
    EW e ((encScalar e .string o (.str s)).getD M.panic) (strPrefix e s.length ++ s) := by
  simp only [encScalar, Option.getD_some, strPrefix]
  by_cases he : e = .bin
  · subst he
    simp only [maxStr] at h
    simp only [if_true, fixed_eq]
    exact (writeRustString_writes .bin s (by omega)).ew
  · rw [if_neg he, if_neg he]
    refine writeString_ew hv s ?_
    cases e <;> simp_all [maxStr]

theorem writeSeqLen_w {e : Encoding} (hv : e.valid = true) (n : Nat) (h : n ≤ maxLen e) :
    EW e (writeSeqLen e n) (lenPrefix e n) := by
  cases e <;> simp only [writeSeqLen, lenPrefix, maxLen] at *
  · rw [varint_eq n (by omega)]
    exact (writeUVarInt_writes .bin n (by omega) (by omega)).ew
  · exact (writeCompactU16_writes _ n h).ew
  · rw [toUnsigned_natCast (by omega), fixed_eq]
    exact (writeUint32_writes .borsh n .le).ew
  · simp [Encoding.valid] at hv

theorem mapOpt_bulk (w : Width) (xs : List Val) (h : ∀ x ∈ xs, UintElem w x) :
    ∃ bs, mapOpt (bulkBytes w) xs = some bs ∧ bs.flatten = xs.flatMap (uintWire w) := by
  induction xs with
  | nil => exact ⟨[], rfl, rfl⟩
  | cons x xs ih =>
    obtain ⟨bs, h1, h2⟩ := ih fun y hy => h y (by simp [hy])
    have hx := h x (by simp)
    cases x <;> try (exact hx.elim)
    rename_i n
    exact ⟨putUint .le w.bytes n :: bs, by simp [mapOpt, bulkBytes, h1], by simp [uintWire, fixed_eq, h2]⟩

theorem writeUints_w {e : Encoding} (w : Width) (xs : List Val) (l : Int) (hl : l = xs.length) (h : ∀ x ∈ xs, UintElem w x) :
    EW e (writeUints l w xs) (xs.flatMap (uintWire w)) := by
  subst hl
  obtain ⟨bs, h1, h2⟩ := mapOpt_bulk w xs h
  unfold writeUints
  rw [if_neg (by omega), if_neg (by simp)]
  simp only [Int.toNat_natCast, List.take_length, h1]
  rw [← h2]
  exact (writeBytesRaw_writes e _).ew

theorem writeFlag_w {e : Encoding} (hv : e.valid = true) (b : Bool) : Writes e (writeFlag e b) (flag e b) := by
  cases e <;> simp only [writeFlag, flag]
  · rw [fixed_eq]; exact writeUint32_writes .bin _ .le
  · simp only [if_neg (show ¬ Encoding.compactU16 = .bin by decide), fixed_one]
    have := writeBool_writes .compactU16 b
    cases b <;> simpa using this
  · simp only [if_neg (show ¬ Encoding.borsh = .bin by decide), fixed_one]
    have := writeOption_writes .borsh b
    cases b <;> simpa using this
  · simp [Encoding.valid] at hv

theorem writeCOption_w {e : Encoding} (b : Bool) : Writes e (writeCOption b) (cflag b) := by
  rw [cflag, fixed_eq]; exact writeCOption_writes e b

/-! ### struct fields -/

open Classical in
theorem encFlags_w {e : Encoding} (hv : e.valid = true) (m : FieldMeta) (t : Ty) (v : Val) (sm : List (Bytes × Int))
    (s : Enc) (he : s.enc = e) (hf : s.NoFail) :
    ∃ cs, encFlags e t (fieldOpt m sm) v s = (.ok (decide (¬ absent e m t v)), s.push cs) ∧
      ∀ body, fieldWire e m t v body = cs.flatten ++ (if absent e m t v then [] else body) := by
  have hfl := fun b => writeFlag_w hv b
  have hcf := fun b => writeCOption_w (e := e) b
  unfold encFlags fieldWire fieldOpt
  simp only []
  by_cases hz : t.isZero v = true
  · by_cases ho : m.tag.option = true
    · have ha : absent e m t v := ⟨hz, Or.inl ho⟩
      obtain ⟨c1, e1, w1⟩ := hfl false s he hf
      refine ⟨c1, ?_, ?_⟩
      · rw [if_pos ⟨ho, hz⟩, M.bind_ok w1]; simp [ha]
      · intro body; rw [if_pos ⟨ho, hz⟩]; simp [ha, e1]
    · by_cases hc : e = .borsh ∧ m.tag.coption = true
      · have ha : absent e m t v := ⟨hz, Or.inr hc⟩
        obtain ⟨rfl, hc⟩ := hc
        obtain ⟨c1, e1, w1⟩ := hcf false s he hf
        refine ⟨c1, ?_, ?_⟩
        · rw [if_neg (fun h => ho h.1)]
          simp only [ho, hz, hc]
          simp [M.bind_ok w1, ha]
        · intro body; rw [if_neg (fun h => ho h.1)]; simp [ha, e1, ho, hc, hz]
      · have ha : ¬ absent e m t v := fun h => h.2.elim ho hc
        refine ⟨[], ?_, ?_⟩
        · rw [if_neg (fun h => ho h.1)]
          simp [ho, hc, ha, M.bind_apply]
        · intro body; rw [if_neg (fun h => ho h.1)]; simp [ha, ho, hc, hz]
  · have ha : ¬ absent e m t v := fun h => hz h.1
    by_cases ho : m.tag.option = true
    · obtain ⟨c1, e1, w1⟩ := hfl true s he hf
      by_cases hc : e = .borsh ∧ m.tag.coption = true
      · obtain ⟨rfl, hc⟩ := hc
        obtain ⟨c2, e2, w2⟩ := hcf true (s.push c1) he hf
        refine ⟨c1 ++ c2, ?_, ?_⟩
        · rw [if_neg (fun h => hz h.2)]
          simp only [ho, hz, hc]
          simp [M.bind_ok w1, M.bind_ok w2, ha]
        · intro body; rw [if_neg (fun h => hz h.2)]; simp [ha, e1, e2, ho, hc, hz]
      · refine ⟨c1, ?_, ?_⟩
        · rw [if_neg (fun h => hz h.2)]
          simp [ho, hc, M.bind_ok w1, ha]
        · intro body; rw [if_neg (fun h => hz h.2)]; simp [ha, e1, ho, hc, hz]
    · by_cases hc : e = .borsh ∧ m.tag.coption = true
      · obtain ⟨rfl, hc⟩ := hc
        obtain ⟨c2, e2, w2⟩ := hcf true s he hf
        refine ⟨c2, ?_, ?_⟩
        · rw [if_neg (fun h => hz h.2)]
          simp only [ho, hz, hc]
          simp [M.bind_ok w2, ha]
        · intro body; rw [if_neg (fun h => hz h.2)]; simp [ha, e2, ho, hc, hz]
      · refine ⟨[], ?_, ?_⟩
        · rw [if_neg (fun h => hz h.2)]
          simp [ho, hc, ha, M.bind_apply]
        · intro body; rw [if_neg (fun h => hz h.2)]; simp [ha, ho, hc, hz]

theorem lookupSize_isSome (name : Bytes) (sm : List (Bytes × Int)) :
    (lookupSize name sm).isSome = (sm.map (·.1)).contains name := by
  induction sm with
  | nil => rfl
  | cons x xs ih =>
    obtain ⟨n, s⟩ := x
    unfold lookupSize
    by_cases h : n = name
    · subst h; simp
    · rw [if_neg h, ih]; simp [Ne.symm h]

/-- One exported field followed by the rest. -/
theorem field_w {e : Encoding} (hv : e.valid = true) (m : FieldMeta) (t : Ty) (v : Val) (sm : List (Bytes × Int))
    {core rest : EM Unit} {body tail : Bytes} (hc : ¬ absent e m t v → EWat e m.tag.order core body) (hr : EW e rest tail) :
    EW e (setCurE m.tag.order >>= fun _ => encFlags e t (fieldOpt m sm) v >>= fun more =>
      if more = true then core >>= fun _ => rest else rest) (fieldWire e m t v body ++ tail) := by
  refine EWat.set fun s he hf ho => ?_
  obtain ⟨c1, w1, hb⟩ := encFlags_w hv m t v sm s he hf
  rw [M.bind_ok w1, hb]
  by_cases ha : absent e m t v
  · simp only [ha, not_true_eq_false, decide_false, Bool.false_eq_true, if_false, if_true, List.append_nil]
    obtain ⟨c2, k2, h2, w2⟩ := hr (s.push c1) he hf
    exact ⟨c1 ++ c2, k2, by simp [h2], by rw [w2, Enc.push_left]⟩
  · simp only [ha, not_false_eq_true, decide_true, if_true, if_false]
    obtain ⟨c2, k2, h2, w2⟩ := (hc ha).seq hr (s.push c1) he hf ho
    exact ⟨c1 ++ c2, k2, by simp [h2], by rw [w2, Enc.push_left]⟩

theorem recordSize_announce {σ : Type} {m : FieldMeta} {t : Ty} {v : Val} {sm sm' : List (Bytes × Int)}
    (h : announce m t v sm = some sm') :
    (recordSize m t v sm : M σ _) = pure sm' ∧ announced m (sm.map (·.1)) = sm'.map (·.1) := by
  unfold announce at h
  unfold recordSize announced
  by_cases h0 : m.tag.sizeOf = []
  · simp only [h0, if_true, Option.some.injEq] at h ⊢
    subst h; exact ⟨rfl, rfl⟩
  · simp only [h0, if_false] at h ⊢
    cases hs : sizeofVal t.kind v with
    | ok n =>
      simp only [hs, Option.some.injEq] at h
      subst h
      exact ⟨by funext s; rfl, by simp⟩
    | err _ => simp [hs] at h
    | panic => simp [hs] at h

theorem wireNth_length {e : Encoding} : (fs : Fields) → (i : Nat) → (vs : List Val) → EncodableNth e fs i vs → i < fs.length
  | .nil, _, _, h => by simp [EncodableNth] at h
  | .cons _ _ _, 0, _, _ => by simp [Fields.length]
  | .cons _ _ fs, i + 1, [], h => by simp [EncodableNth] at h
  | .cons _ _ fs, i + 1, _ :: vs, h => by
    have := wireNth_length fs i vs (by simpa [EncodableNth] using h)
    simp [Fields.length]; omega

/-- What `Encodable` says about a struct. -/
def EncStruct (e : Encoding) (fs : Fields) (vs : List Val) : Prop :=
  if e = .borsh ∧ fs.isEnum then
    match vs with
    | .uint n :: _ => n < 256 ∧ EncodableNth e fs (n + 1) vs
    | _ => False
  else EncodableFields e fs [] vs

/-- What `wire` says about a struct. -/
def structWire (e : Encoding) (fs : Fields) (vs : List Val) : Bytes :=
  if e = .borsh ∧ fs.isEnum then
    match vs with
    | .uint n :: _ => fixed .le 1 n ++ wireNth e fs (n + 1) vs
    | _ => []
  else wireFields e fs [] vs

theorem encStruct_w {e : Encoding} {fs : Fields} {vs : List Val} {fields : EM Unit} {nth : Nat → EM Unit}
    (h : EncStruct e fs vs)
    (h1 : EncodableFields e fs [] vs → EW e fields (wireFields e fs [] vs))
    (h2 : ∀ i, e = .borsh → EncodableNth e fs i vs → EW e (nth i) (wireNth e fs i vs)) :
    EW e (encStruct e fs vs fields nth) (structWire e fs vs) := by
  unfold EncStruct at h
  unfold encStruct structWire
  by_cases hc : e = .borsh ∧ fs.isEnum = true
  · rw [if_pos hc] at h ⊢
    rw [if_pos hc]
    split at h
    · rename_i n vs'
      simp only []
      have hl := wireNth_length fs (n + 1) _ h.2
      rw [if_neg (by omega), fixed_one]
      exact (writeByte_writes e _).ew.seq (h2 _ hc.1 h.2)
    · exact h.elim
  · rw [if_neg hc] at h ⊢
    rw [if_neg hc]
    exact h1 h

theorem encLibPayload_w (l : Lib) (v : Val) (hp : payloadBase (.lib l) = true) (h : LibEnc .borsh l v) :
    EW .borsh (encLibPayload .borsh l v) (libWire .borsh l .le v) := by
  cases l <;> cases v <;> first | exact h.elim | (simp [payloadBase] at hp; done) | skip
  case safeString.str s => exact writeString_ew rfl s h
  case bool.bool b => exact (writeBool_writes _ b).ew
  case jsonFloat64.float n => exact f64Bytes .f64 rfl .le n h.2
  case int64.int z => exact intBytes .w64 .le z
  case uint64.uint n => exact uintBytes .w64 .le n
  case emptyVariant.struct => exact EW.pure
  all_goals
    rename_i lo hi en
    simp only [libWire, encLibPayload, encU128Fields]
    rw [fixed128_eq .le lo hi h.1, put128]
    simp only [putUint]
    have e3 : EW .borsh (setCurE .le) [] := fun s _ _ => ⟨[], some .le, rfl, by simp [setCurE, Enc.left]⟩
    have h2 := EWat.set (((writeUint64_writes .borsh hi .le).ew.seq e3).at .le)
    have h1 := EWat.set (((writeUint64_writes .borsh lo .le).ew.seq h2).at .le)
    simpa [putUint] using h1

theorem plain_w {e : Encoding} {k : Kind} {opt : Opt} {v : Val} {bs : Bytes}
    (h : EW e ((encScalar e k (ord e opt.order) v).getD M.panic) bs) : EWat e opt.order (encPlain e k opt v) bs := h.at _

theorem wire_lib (e : Encoding) (l : Lib) (o : Order) (b : Bool) (v : Val) : wire e (.lib l) o b v = libWire e l o v := by
  simp [wire]

/-- Entries as the Borsh encoder orders them. -/
theorem entries_w {e : Encoding} (k : Ty) (m : List (Val × Val))
    (hs : e = .borsh → orderedKey k = true) (hd : m.Pairwise fun x y => k.keyEq x.1 y.1 = false)
    (hk : ∀ x ∈ m, k.keyEq x.1 x.1 = true ∧ Encodable e k none x.1) (s : Enc) :
    mapEntries e k m s = (.ok (entries e k m), s) := by
  unfold entries mapEntries
  by_cases he : e = .borsh
  · rw [if_pos he, if_pos he]
    unfold sortedEntries
    have hs' := hs he
    have heq := sortEntries_eq k hs' m (fun y hy => keyShape_of_enc hs' (hk y hy).2 (hk y hy).1) hd
    by_cases hl : m.length < 2
    · rw [if_pos hl, M.pure_apply]
      have : sortEntries k.kind m = m := by
        match m, hl with
        | [], _ => rfl
        | [x], _ => rfl
      rw [← heq, this]
    · rw [if_neg hl, if_pos ((sortable_eq k).trans hs'), M.pure_apply, heq]
  · rw [if_neg he, if_neg he, M.pure_apply]

theorem entries_perm (e : Encoding) (k : Ty) (m : List (Val × Val)) : (entries e k m).Perm m := by
  unfold entries
  split
  · exact ascending_perm k m
  · exact List.Perm.refl _

theorem floatEq_self {w : Nat} {f : Nat → Bool} {n : Nat} (h : floatEq w f n n = true) : f n = false := by
  simp [floatEq] at h; exact h

theorem zip_self_all {p : Val → Val → Bool} {q : Val → Bool} (xs : List Val) (hpq : ∀ x ∈ xs, p x x = true → q x = true)
    (h : ((xs.zip xs).all fun y => p y.1 y.2) = true) : xs.all q = true := by
  induction xs with
  | nil => rfl
  | cons x xs ih =>
    simp only [List.zip_cons_cons, List.all_cons, Bool.and_eq_true] at h ⊢
    exact ⟨hpq x (by simp) h.1, ih (fun y hy => hpq y (by simp [hy])) h.2⟩

mutual
theorem found_of_keyEq : (k : Ty) → (x : Val) → k.keyEq x x = true → k.found x = true
  | .f32, x, h => by
    cases x <;> simp only [Ty.found] <;> simp only [Ty.keyEq] at h
    simp [floatEq_self h]
  | .f64, x, h => by
    cases x <;> simp only [Ty.found] <;> simp only [Ty.keyEq] at h
    simp [floatEq_self h]
  | .lib l, x, h => by
    cases l <;> cases x <;> simp only [Ty.found] <;> simp only [Ty.keyEq, Lib.keyEq] at h
    simp [floatEq_self h]
  | .array n t, x, h => by
    cases x <;> simp only [Ty.found] <;> simp only [Ty.keyEq, Bool.and_eq_true] at h
    exact zip_self_all _ (fun y _ hy => found_of_keyEq t y hy) h.2
  | .struct fs, x, h => by
    cases x <;> simp only [Ty.found] <;> simp only [Ty.keyEq] at h
    exact founds_of_keysEq fs _ h
  | .bool, x, _ | .uint _ _, x, _ | .int _ _, x, _ | .borshEnum, x, _ | .str, x, _ | .ptr _, x, _ | .slice _, x, _
  | .map _ _, x, _ | .iface, x, _ | .plainInt, x, _ | .plainUint, x, _ | .other, x, _ => by simp only [Ty.found]
theorem founds_of_keysEq : (fs : Fields) → (xs : List Val) → fs.keysEq xs xs = true → fs.found xs = true
  | .nil, xs, _ => by simp only [Fields.found]
  | .cons m t fs, [], _ => by simp only [Fields.found]
  | .cons m t fs, x :: xs, h => by
    simp only [Fields.keysEq, Bool.and_eq_true] at h
    simp only [Fields.found, Bool.and_eq_true]
    exact ⟨found_of_keyEq t x h.1, founds_of_keysEq fs xs h.2⟩
end

mutual
theorem encCore_w {e : Encoding} (hv : e.valid = true) : (t : Ty) → (opt : Opt) → (v : Val) →
    Encodable e t opt.sizeOf v → EWat e opt.order (encCore e t opt v) (wire e t opt.order opt.sizeOf.isSome v)
  | .bool, opt, v, h => by
    cases v <;> simp only [Encodable] at h
    rename_i b
    simp only [encCore, wire]
    exact plain_w (writeBool_writes e b).ew
  | .uint w _, opt, v, h => by
    cases v <;> simp only [Encodable] at h
    simp only [encCore, wire]
    exact plain_w (uintBytes w _ _)
  | .int w _, opt, v, h => by
    cases v <;> simp only [Encodable] at h
    simp only [encCore, wire]
    exact plain_w (intBytes w _ _)
  | .borshEnum, opt, v, h => by
    cases v <;> simp only [Encodable] at h
    simp only [encCore, wire]
    rw [fixed_one]
    exact plain_w (writeByte_writes e _).ew
  | .f32, opt, v, h => by
    cases v <;> simp only [Encodable] at h
    simp only [encCore, wire]
    exact plain_w (f32Bytes _ _ h.2.1 h.2.2)
  | .f64, opt, v, h => by
    cases v <;> simp only [Encodable] at h
    simp only [encCore, wire]
    exact plain_w (f64Bytes _ rfl _ _ h.2)
  | .str, opt, v, h => by
    cases v <;> simp only [Encodable] at h
    simp only [encCore, wire]
    exact plain_w (strBytes hv _ _ h)
  | .lib l, opt, v, h => by
    simp only [Encodable] at h
    simp only [encCore, wire]
    exact marshalLib_w hv l _ v h
  | .ptr t, opt, v, h => by
    cases v <;> simp only [Encodable] at h
    rename_i p
    simp only [encCore]
    unfold wire
    cases ht : t.asLib with
    | some l =>
      obtain rfl : t = .lib l := by cases t <;> simp_all [Ty.asLib]
      simp only [Ty.asLib, reduceCtorEq, and_false, if_false]
      cases p with
      | some x =>
        simp only [Encodable] at h
        simp only [wire]
        exact marshalLib_w hv l _ x h
      | none =>
        simp only [Ty.asLib] at h
        simp only [h, if_true]
        exact EW.pure.at _
    | none =>
      simp only [ht] at h
      by_cases hb : e = .borsh
      · simp only [hb, true_and, if_true]
        subst hb
        refine (EWat.set ?_).at _
        have := encCore_w hv t {} (p.getD t.zero) (by
          cases p with
          | none => simpa using h
          | some x => simpa using h)
        simpa using this
      · simp only [hb, false_and, if_false]
        cases p with
        | none => exact (EWat.set (EW.pure.at _)).at _
        | some x =>
          simp only [hb, if_false] at h
          exact (EWat.set (encCore_w hv t opt x h)).at _
  | .slice t, opt, v, h => by
    cases v <;> simp only [Encodable] at h
    rename_i xs
    simp only [encCore, wire]
    obtain ⟨hsz, hel⟩ := h
    have hbody : ∀ l : Int, l = (xs.getD []).length → EW e
        (match t.uintKind with
          | some w => writeUints l w (xs.getD [])
          | none => forIndexM (fun x => do setCurE .le; encCore e t {} x) l.toNat (xs.getD []))
        ((xs.getD []).flatMap fun x =>
          match t.uintKind with
          | some w => uintWire w x
          | none => wire e t .le false x) := by
      intro l hl
      cases hu : t.uintKind with
      | some w =>
        simp only [hu] at hel ⊢
        exact writeUints_w w _ l hl hel
      | none =>
        simp only [hu] at hel ⊢
        rw [hl, Int.toNat_natCast]
        exact EW.forIndex _ fun x hx => EWat.set (by simpa using encCore_w hv t {} x (hel x hx))
    cases hs : opt.sizeOf with
    | some s =>
      simp only [hs] at hsz
      simp only [Option.isSome_some, if_true, List.nil_append]
      exact (hbody s hsz).at _
    | none =>
      simp only [hs] at hsz
      simp only [Option.isSome_none, Bool.false_eq_true, if_false]
      refine EW.at ?_ _
      intro s he hf
      obtain ⟨c1, k1, h1, w1⟩ := writeSeqLen_w hv _ hsz s he hf
      obtain ⟨c2, k2, h2, w2⟩ := hbody _ rfl (s.left c1 k1) he (hf.left _ _)
      refine ⟨c1 ++ c2, k2, by rw [List.flatten_append, h1, h2]; rfl, ?_⟩
      rw [M.bind_ok w1, M.bind_ok (M.pure_apply _ _), ← Enc.left_left]
      exact w2
  | .array n t, opt, v, h => by
    cases v <;> simp only [Encodable] at h
    rename_i xs
    simp only [encCore, wire]
    obtain ⟨rfl, hel⟩ := h
    cases hu : t.uintKind with
    | some w =>
      simp only [hu] at hel ⊢
      exact (writeUints_w w _ _ rfl hel).at _
    | none =>
      simp only [hu] at hel ⊢
      exact (EW.forIndex _ fun x hx => EWat.set (by simpa using encCore_w hv t {} x (hel x hx))).at _
  | .map k t, opt, v, h => by
    cases v <;> simp only [Encodable] at h
    rename_i m
    simp only [encCore, wire]
    obtain ⟨hl, hs, hd, hk⟩ := h
    refine EW.at ?_ _
    intro s he hf
    have h0 := entries_w (e := e) k (m.getD []) hs hd (fun x hx => ⟨(hk x hx).1, (hk x hx).2.1⟩) s
    rw [M.bind_ok h0]
    have hp := entries_perm e k (m.getD [])
    have hlen := hp.length_eq
    have h1 := (writeSeqLen_w hv (entries e k (m.getD [])).length (by omega)).seq
      (EW.forEach (entries e k (m.getD []))
        (f := fun x => do
          setCurE .le
          encCore e k {} x.1
          if k.found x.1 then do
            setCurE .le
            encCore e t {} x.2
          else M.panic)
        (g := fun x => wire e k .le false x.1 ++ wire e t .le false x.2)
        fun x hx => EWat.set <| by
          have hx' := hk x (hp.mem_iff.mp hx)
          have a1 := encCore_w hv k {} x.1 (by simpa using hx'.2.1)
          have a2 := EWat.set (encCore_w hv t {} x.2 (by simpa using hx'.2.2))
          rw [if_pos (found_of_keyEq k _ hx'.1)]
          simpa using a1.seq a2)
    rw [hlen] at h1
    have := h1 s he hf
    rwa [hlen]
  | .struct fs, opt, v, h => by
    cases v <;> simp only [Encodable] at h
    rename_i vs
    simp only [encCore, wire]
    exact (encStruct_w h (fun h => by simpa using encFields_w hv fs [] vs h) (fun i hb h => encNth_w hb fs i vs h)).at _
  | .iface, opt, v, h => by
    cases v <;> simp only [Encodable] at h
    simp only [encCore, wire]
    exact EW.pure.at _
  | .plainInt, opt, v, h => by simp [Encodable] at h
  | .plainUint, opt, v, h => by simp [Encodable] at h
  | .other, opt, v, h => by simp [Encodable] at h
termination_by structural t => t
theorem encFields_w {e : Encoding} (hv : e.valid = true) : (fs : Fields) → (sm : List (Bytes × Int)) → (vs : List Val) →
    EncodableFields e fs sm vs → EW e (encFields e fs sm vs) (wireFields e fs (sm.map (·.1)) vs)
  | .nil, sm, vs, h => by
    simp only [encFields, wireFields]
    exact EW.pure
  | .cons m t fs, sm, [], h => by simp [EncodableFields] at h
  | .cons m t fs, sm, v :: vs, h => by
    simp only [EncodableFields] at h
    simp only [encFields, wireFields]
    by_cases hsk : m.tag.skip = true
    · simp only [hsk, if_true] at h ⊢
      exact encFields_w hv fs sm vs h
    · rw [if_neg hsk] at h ⊢
      rw [if_neg hsk]
      cases ha : announce m t v sm with
      | none => simp only [ha] at h
      | some sm' =>
        simp only [ha] at h
        obtain ⟨r1, r2⟩ := recordSize_announce (σ := Enc) ha
        have hrest := encFields_w hv fs sm' vs h.2
        rw [r1, r2]
        have hb : ∀ f : List (Bytes × Int) → EM Unit, ((pure sm' : EM _) >>= f) = f sm' := fun f => rfl
        rw [hb]
        by_cases hx : m.exported = true
        · simp only [hx, if_true]
          have hf := field_w hv m t v sm' (core := encCore e t (fieldOpt m sm') v)
            (body := wire e t m.tag.order (lookupSize m.name sm').isSome v)
            (fun hab => encCore_w hv t (fieldOpt m sm') v (h.1 hx hab)) hrest
          rw [lookupSize_isSome] at hf
          exact hf
        · rw [if_neg hx, if_neg hx]
          exact hrest
termination_by structural fs => fs
theorem encNth_w {e : Encoding} (hb : e = .borsh) : (fs : Fields) → (i : Nat) → (vs : List Val) →
    EncodableNth e fs i vs → EW e (encNth e fs i vs) (wireNth e fs i vs)
  | .nil, i, vs, h => by simp [EncodableNth] at h
  | .cons _ t fs, 0, [], h => by simp [EncodableNth] at h
  | .cons _ t fs, 0, v :: vs, h => by
    simp only [EncodableNth] at h
    simp only [encNth, wireNth]
    exact encPayload_w hb t v h.1 h.2
  | .cons _ t fs, i + 1, [], h => by simp [EncodableNth] at h
  | .cons _ t fs, i + 1, _ :: vs, h => by
    simp only [EncodableNth] at h
    simp only [encNth, wireNth]
    exact encNth_w hb fs i vs h
termination_by structural fs => fs
theorem encPayload_w {e : Encoding} (hb : e = .borsh) : (t : Ty) → (v : Val) → payloadOk t v → Encodable e t none v →
    EW e (encPayload e t v) (wire e t .le false v)
  | .ptr t, v, hp, h => by
    obtain ⟨hp, x, rfl⟩ := hp
    simp only [Encodable, ite_self] at h
    simp only [encPayload, wire, Option.getD_some, ite_self]
    exact encVariant_w hb t x hp h
  | .struct fs, v, hp, h => by
    cases v <;> simp only [Encodable] at h
    rename_i vs
    simp only [encPayload, wire]
    have hv : e.valid = true := by subst hb; rfl
    exact encStruct_w h (fun h => by simpa using encFields_w hv fs [] vs h) (fun i hb h => encNth_w hb fs i vs h)
  | .lib l, v, hp, h => by
    subst hb
    simp only [encPayload, wire]
    exact encLibPayload_w l v hp h
  | .bool, v, hp, h => by
    cases v <;> simp only [Encodable] at h
    simp only [encPayload, wire]
    exact (writeBool_writes e _).ew
  | .uint w _, v, hp, h => by
    cases v <;> simp only [Encodable] at h
    simp only [encPayload, wire]
    subst hb
    have := uintBytes (e := .borsh) w .le
    cases w <;> exact this _
  | .int w _, v, hp, h => by
    cases v <;> simp only [Encodable] at h
    simp only [encPayload, wire]
    subst hb
    have := intBytes (e := .borsh) w .le
    cases w <;> exact this _
  | .borshEnum, v, hp, h => by
    cases v <;> simp only [Encodable] at h
    simp only [encPayload, wire]
    exact uintBytes (e := e) .w8 .le _
  | .f32, v, hp, h => by
    cases v <;> simp only [Encodable] at h
    simp only [encPayload, wire]
    subst hb
    exact f32Bytes .le _ h.2.1 h.2.2
  | .f64, v, hp, h => by
    cases v <;> simp only [Encodable] at h
    simp only [encPayload, wire]
    subst hb
    exact f64Bytes .f64 rfl .le _ h.2
  | .str, v, hp, h => by
    cases v <;> simp only [Encodable] at h
    simp only [encPayload, wire]
    subst hb
    exact strBytes rfl .le _ h
  | .slice _, v, hp, h => by simp [payloadOk, payloadBase] at hp
  | .array _ _, v, hp, h => by simp [payloadOk, payloadBase] at hp
  | .map _ _, v, hp, h => by simp [payloadOk, payloadBase] at hp
  | .iface, v, hp, h => by simp [payloadOk, payloadBase] at hp
  | .plainInt, v, hp, h => by simp [payloadOk, payloadBase] at hp
  | .plainUint, v, hp, h => by simp [payloadOk, payloadBase] at hp
  | .other, v, hp, h => by simp [payloadOk, payloadBase] at hp
termination_by structural t => t
theorem encVariant_w {e : Encoding} (hb : e = .borsh) : (t : Ty) → (v : Val) → payloadBase t = true → Encodable e t none v →
    EW e (encVariant e t v) (wire e t .le false v)
  | .struct fs, v, hp, h => by
    cases v <;> simp only [Encodable] at h
    rename_i vs
    simp only [encVariant, wire]
    have hv : e.valid = true := by subst hb; rfl
    exact encStruct_w h (fun h => by simpa using encFields_w hv fs [] vs h) (fun i hb h => encNth_w hb fs i vs h)
  | .lib l, v, hp, h => by
    subst hb
    simp only [encVariant, wire]
    exact encLibPayload_w l v hp h
  | .bool, v, hp, h => by
    cases v <;> simp only [Encodable] at h
    simp only [encVariant, wire]
    exact (writeBool_writes e _).ew
  | .uint w _, v, hp, h => by
    cases v <;> simp only [Encodable] at h
    simp only [encVariant, wire]
    subst hb
    have := uintBytes (e := .borsh) w .le
    cases w <;> exact this _
  | .int w _, v, hp, h => by
    cases v <;> simp only [Encodable] at h
    simp only [encVariant, wire]
    subst hb
    have := intBytes (e := .borsh) w .le
    cases w <;> exact this _
  | .borshEnum, v, hp, h => by
    cases v <;> simp only [Encodable] at h
    simp only [encVariant, wire]
    exact uintBytes (e := e) .w8 .le _
  | .f32, v, hp, h => by
    cases v <;> simp only [Encodable] at h
    simp only [encVariant, wire]
    subst hb
    exact f32Bytes .le _ h.2.1 h.2.2
  | .f64, v, hp, h => by
    cases v <;> simp only [Encodable] at h
    simp only [encVariant, wire]
    subst hb
    exact f64Bytes .f64 rfl .le _ h.2
  | .str, v, hp, h => by
    cases v <;> simp only [Encodable] at h
    simp only [encVariant, wire]
    subst hb
    exact strBytes rfl .le _ h
  | .ptr _, v, hp, h => by simp [payloadBase] at hp
  | .slice _, v, hp, h => by simp [payloadBase] at hp
  | .array _ _, v, hp, h => by simp [payloadBase] at hp
  | .map _ _, v, hp, h => by simp [payloadBase] at hp
  | .iface, v, hp, h => by simp [payloadBase] at hp
  | .plainInt, v, hp, h => by simp [payloadBase] at hp
  | .plainUint, v, hp, h => by simp [payloadBase] at hp
  | .other, v, hp, h => by simp [payloadBase] at hp
termination_by structural t => t
end

theorem encode_w {e : Encoding} (hv : e.valid = true) (t : Ty) (v : Val) (h : Encodable e t none v) :
    EW e (encode t v) (wire e t .le false v) := by
  intro s he hf
  have hne : s.enc ≠ .other := by intro hh; rw [he] at hh; subst hh; simp [Encoding.valid] at hv
  have := EWat.set (encCore_w hv t {} v h) s he hf
  unfold encode
  rw [M.bind_ok (M.get_apply s), if_neg hne, he]
  exact this

end Verif
