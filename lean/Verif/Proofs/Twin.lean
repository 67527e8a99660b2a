import Verif.Proofs.DecodeStable
/-!
What a decode does depends only on the unread bytes, the encoding and the current field option.
-/
set_option linter.unusedSimpArgs false
namespace Verif
open Spec

/-- `d2`, with the data `b`, has the same bytes ahead as `d1`, with the data `a`, `k` positions further on. -/
structure Twins (k : Int) (a b : Bytes) (d1 d2 : Dec) : Prop where
  data1 : d1.data = a
  data2 : d2.data = b
  pos1 : 0 ≤ d1.pos
  pos2 : 0 ≤ d2.pos
  pos : d2.pos = d1.pos + k
  len : (d2.data.length : Int) = d1.data.length + k
  rest : d1.data.drop d1.pos.toNat = d2.data.drop d2.pos.toNat
  enc : d1.enc = d2.enc
  cur : d1.cur = d2.cur

/-- Twins stay twins and get the same results. -/
def Twin {α : Type} (r : DM α) : Prop :=
  ∀ k a b d1 d2, Twins k a b d1 d2 → (r d1).1 = (r d2).1 ∧ Twins k a b (r d1).2 (r d2).2

section
variable {α β : Type}

theorem Twin.lift (r : Res α) : Twin (M.lift r : DM α) := fun _ _ _ _ _ h => ⟨rfl, h⟩
theorem Twin.pure (a : α) : Twin (pure a : DM α) := Twin.lift (.ok a)
theorem Twin.err (x : Err) : Twin (M.err x : DM α) := Twin.lift (.err x)
theorem Twin.panic : Twin (M.panic : DM α) := Twin.lift .panic

theorem Twin.bind {r : DM α} {f : α → DM β} (h : Twin r) (hf : ∀ a, Twin (f a)) : Twin (r >>= f) := by
  intro k a' b' d1 d2 ht
  obtain ⟨h1, h2⟩ := h k a' b' d1 d2 ht
  cases hr1 : r d1 with
  | mk x1 d1' =>
    cases hr2 : r d2 with
    | mk x2 d2' =>
      rw [hr1, hr2] at h1 h2
      simp only at h1 h2
      subst h1
      cases x1 with
      | ok a => rw [M.bind_ok hr1, M.bind_ok hr2]; exact hf a k _ _ _ _ h2
      | err x => rw [M.bind_err hr1, M.bind_err hr2]; exact ⟨rfl, h2⟩
      | panic => rw [M.bind_panic hr1, M.bind_panic hr2]; exact ⟨rfl, h2⟩

theorem Twin.ite {c : Prop} [Decidable c] {r s : DM α} (h1 : c → Twin r) (h2 : ¬ c → Twin s) : Twin (if c then r else s) := by
  by_cases h : c
  · rw [if_pos h]; exact h1 h
  · rw [if_neg h]; exact h2 h

/-- A step that looks at the decoder only through the number of unread bytes, the encoding and the field option. -/
theorem Twin.get {f : Dec → DM α} (g : Int → Encoding → Option Order → DM α) (hf : ∀ d, f d = g d.remaining d.enc d.cur)
    (h : ∀ n e c, Twin (g n e c)) : Twin (M.get >>= f) := by
  intro k a' b' d1 d2 ht
  rw [M.bind_ok (M.get_apply _), M.bind_ok (M.get_apply _), hf, hf]
  have hr : d2.remaining = d1.remaining := by
    unfold Dec.remaining
    have := ht.pos
    have := ht.len
    omega
  rw [hr, ← ht.enc, ← ht.cur]
  exact h _ _ _ k a' b' d1 d2 ht

theorem Twin.setCur (o : Order) : Twin (setCurD o) := fun _ _ _ _ _ h =>
  ⟨rfl, ⟨h.data1, h.data2, h.pos1, h.pos2, h.pos, h.len, h.rest, h.enc, rfl⟩⟩

theorem Twin.advance {n : Int} (hn : 0 ≤ n) : Twin (advance n) := fun k a b d1 d2 h => by
  have := h.pos1
  have := h.pos2
  have := h.pos
  refine ⟨rfl, ⟨h.data1, h.data2, ?_, ?_, ?_, h.len, ?_, h.enc, h.cur⟩⟩
  · show 0 ≤ d1.pos + n
    omega
  · show 0 ≤ d2.pos + n
    omega
  · show d2.pos + n = d1.pos + n + k
    omega
  · show d1.data.drop (d1.pos + n).toNat = d2.data.drop (d2.pos + n).toNat
    rw [show (d1.pos + n).toNat = d1.pos.toNat + n.toNat by omega, show (d2.pos + n).toNat = d2.pos.toNat + n.toNat by omega,
      ← List.drop_drop, ← List.drop_drop, h.rest]

theorem Twin.restM : Twin restM := fun k a b d1 d2 h => by
  have := h.pos1
  have := h.pos2
  have := h.pos
  have := h.len
  unfold Verif.restM
  by_cases hc : d1.pos ≤ d1.data.length
  · rw [if_pos ⟨h.pos1, hc⟩, if_pos ⟨h.pos2, by omega⟩]
    exact ⟨by rw [h.rest], h⟩
  · rw [if_neg (by omega), if_neg (by omega)]
    exact ⟨rfl, h⟩

theorem Twin.sliceM (n : Int) : Twin (sliceM n) := fun k a b d1 d2 h => by
  have := h.pos1
  have := h.pos2
  have := h.pos
  have := h.len
  unfold Verif.sliceM
  by_cases hc : 0 ≤ n ∧ d1.pos + n ≤ d1.data.length
  · rw [if_pos ⟨h.pos1, hc⟩, if_pos ⟨h.pos2, hc.1, by omega⟩]
    exact ⟨by rw [h.rest], h⟩
  · rw [if_neg (by omega), if_neg (by omega)]
    exact ⟨rfl, h⟩

theorem Twin.repeat {f : DM α} (h : Twin f) (n : Nat) : Twin (repeatM f n) := by
  induction n with
  | zero => exact Twin.pure _
  | succ n ih => unfold repeatM; exact h.bind fun _ => ih.bind fun _ => Twin.pure _

theorem Twin.traverse {γ : Type} {f : γ → DM α} (ys : List γ) (h : ∀ y, Twin (f y)) : Twin (traverseM f ys) := by
  induction ys with
  | nil => exact Twin.pure _
  | cons y ys ih => unfold traverseM; exact (h y).bind fun _ => ih.bind fun _ => Twin.pure _
end

/-! ### primitives -/

theorem readUvarint64_twin : Twin readUvarint64 := Twin.restM.bind fun b =>
  Twin.ite (fun _ => Twin.err _) fun h => (Twin.advance (by omega)).bind fun _ => Twin.pure _
theorem readVarint64_twin : Twin readVarint64 := Twin.restM.bind fun b =>
  Twin.ite (fun _ => Twin.err _) fun h => (Twin.advance (by omega)).bind fun _ => Twin.pure _
theorem readVarint32_twin : Twin readVarint32 := readVarint64_twin.bind fun _ => Twin.pure _
theorem readUvarint32_twin : Twin readUvarint32 := readUvarint64_twin.bind fun _ => Twin.pure _
theorem readVarint16_twin : Twin readVarint16 := readVarint64_twin.bind fun _ => Twin.pure _
theorem readUvarint16_twin : Twin readUvarint16 := readUvarint64_twin.bind fun _ => Twin.pure _

theorem readByte_twin : Twin readByte := by
  refine Twin.get (fun n _ _ => if n < 1 then M.err .notEnough else do
    let b ← restM
    match b with
    | [] => M.panic
    | x :: _ => do
      advance 1
      pure x) (fun _ => rfl) fun n _ _ => Twin.ite (fun _ => Twin.err _) fun _ => Twin.restM.bind fun b => ?_
  cases b with
  | nil => exact Twin.panic
  | cons x _ => exact (Twin.advance (by omega)).bind fun _ => Twin.pure _

theorem readUint8_twin : Twin readUint8 := readByte_twin.bind fun _ => Twin.pure _
theorem readInt8_twin : Twin readInt8 := readByte_twin.bind fun _ => Twin.pure _

theorem readUint16_twin (o : Order) : Twin (readUint16 o) :=
  Twin.get (fun n _ _ => if n < 2 then M.err .notEnough else do
    let b ← restM
    let n ← M.lift (getUint o 2 b)
    advance 2
    pure n) (fun _ => rfl) fun n _ _ => Twin.ite (fun _ => Twin.err _) fun _ => Twin.restM.bind fun b =>
      (Twin.lift _).bind fun _ => (Twin.advance (by omega)).bind fun _ => Twin.pure _
theorem readInt16_twin (o : Order) : Twin (readInt16 o) := (readUint16_twin o).bind fun _ => Twin.pure _
theorem readUint32_twin (o : Order) : Twin (readUint32 o) :=
  Twin.get (fun n _ _ => if n < 4 then M.err .notEnough else do
    let b ← restM
    let n ← M.lift (getUint o 4 b)
    advance 4
    pure n) (fun _ => rfl) fun n _ _ => Twin.ite (fun _ => Twin.err _) fun _ => Twin.restM.bind fun b =>
      (Twin.lift _).bind fun _ => (Twin.advance (by omega)).bind fun _ => Twin.pure _
theorem readInt32_twin (o : Order) : Twin (readInt32 o) := (readUint32_twin o).bind fun _ => Twin.pure _

theorem readNBytes_twin (n : Int) : Twin (readNBytes n) := by
  unfold readNBytes
  refine Twin.ite (fun _ => Twin.pure _) fun h0 => Twin.ite (fun _ => Twin.err _) fun h1 => ?_
  refine Twin.get (fun k _ _ => if n > k then M.err .notEnough else do
      let out ← sliceM n
      advance n
      pure out) (fun d => ?_) fun k _ _ => Twin.ite (fun _ => Twin.err _) fun _ => (Twin.sliceM n).bind fun _ =>
        (Twin.advance (by omega)).bind fun _ => Twin.pure _
  unfold Dec.remaining
  by_cases h : d.pos + n > d.data.length
  · rw [if_pos h, if_pos (by omega)]
  · rw [if_neg h, if_neg (by omega)]

theorem readUint64_twin (o : Order) : Twin (readUint64 o) :=
  Twin.get (fun n _ _ => if n < 8 then M.err .notEnough else do
    let data ← readNBytes 8
    M.lift (getUint o 8 data)) (fun _ => rfl) fun n _ _ => Twin.ite (fun _ => Twin.err _) fun _ =>
      (readNBytes_twin 8).bind fun _ => Twin.lift _
theorem readInt64_twin (o : Order) : Twin (readInt64 o) := (readUint64_twin o).bind fun _ => Twin.pure _

theorem readUint128_twin (o : Order) : Twin (readUint128 o) := by
  cases o
  · refine Twin.get (fun n _ _ => if n < 16 then M.err .notEnough else do
      let data ← sliceM 16
      let r ← do
        let hi ← M.lift (getUint .le 8 (data.drop 8))
        let lo ← M.lift (getUint .le 8 (data.take 8))
        pure (lo, hi)
      advance 16
      pure r) (fun _ => rfl) fun n _ _ => Twin.ite (fun _ => Twin.err _) fun _ => (Twin.sliceM _).bind fun _ =>
        (Twin.lift _).bind fun _ => (Twin.lift _).bind fun _ => (Twin.pure _).bind fun _ =>
        (Twin.advance (by omega)).bind fun _ => Twin.pure _
  · refine Twin.get (fun n _ _ => if n < 16 then M.err .notEnough else do
      let data ← sliceM 16
      let r ← do
        let hi ← M.lift (getUint .be 8 (data.take 8))
        let lo ← M.lift (getUint .be 8 (data.drop 8))
        pure (lo, hi)
      advance 16
      pure r) (fun _ => rfl) fun n _ _ => Twin.ite (fun _ => Twin.err _) fun _ => (Twin.sliceM _).bind fun _ =>
        (Twin.lift _).bind fun _ => (Twin.lift _).bind fun _ => (Twin.pure _).bind fun _ =>
        (Twin.advance (by omega)).bind fun _ => Twin.pure _

theorem readFloat32_twin (o : Order) : Twin (readFloat32 o) :=
  Twin.get (fun n e _ => if n < 4 then M.err .notEnough else do
    let b ← restM
    let n ← M.lift (getUint o 4 b)
    advance 4
    if e = .borsh ∧ isNaN32 n then M.err .nan else pure n) (fun _ => rfl) fun n _ _ => Twin.ite (fun _ => Twin.err _)
      fun _ => Twin.restM.bind fun b => (Twin.lift _).bind fun _ => (Twin.advance (by omega)).bind fun _ =>
      Twin.ite (fun _ => Twin.err _) fun _ => Twin.pure _
theorem readFloat64_twin (o : Order) : Twin (readFloat64 o) :=
  Twin.get (fun n e _ => if n < 8 then M.err .notEnough else do
    let b ← restM
    let n ← M.lift (getUint o 8 b)
    advance 8
    if e = .borsh ∧ isNaN64 n then M.err .nan else pure n) (fun _ => rfl) fun n _ _ => Twin.ite (fun _ => Twin.err _)
      fun _ => Twin.restM.bind fun b => (Twin.lift _).bind fun _ => (Twin.advance (by omega)).bind fun _ =>
      Twin.ite (fun _ => Twin.err _) fun _ => Twin.pure _

theorem readCompactU16_twin : Twin readCompactU16 := Twin.restM.bind fun b => by
  split
  · exact (Twin.advance (by omega)).bind fun _ => Twin.pure _
  · exact Twin.err _
  · exact Twin.panic

theorem readLength_twin : Twin readLength := by
  refine Twin.get (fun _ e _ => match e with
    | .bin => do
      let val ← readUvarint64
      if val > 0x7FFFFFFF then M.err .eof else pure val
    | .borsh => do
      let val ← readUint32 .le
      if val > 0x7FFFFFFF then M.err .eof else pure val
    | .compactU16 => readCompactU16
    | .other => M.panic) (fun _ => rfl) fun _ e _ => ?_
  cases e
  · exact readUvarint64_twin.bind fun _ => Twin.ite (fun _ => Twin.err _) fun _ => Twin.pure _
  · exact readCompactU16_twin
  · exact (readUint32_twin _).bind fun _ => Twin.ite (fun _ => Twin.err _) fun _ => Twin.pure _
  · exact Twin.panic

theorem readByteSlice_twin : Twin readByteSlice := readLength_twin.bind fun n => by
  refine Twin.get (fun k _ _ => if k < n then M.err .notEnough else do
      let out ← sliceM n
      advance n
      pure out) (fun d => ?_) fun k _ _ => Twin.ite (fun _ => Twin.err _) fun _ => (Twin.sliceM n).bind fun _ =>
        (Twin.advance (by omega)).bind fun _ => Twin.pure _
  unfold Dec.remaining
  by_cases h : (d.data.length : Int) < d.pos + n
  · rw [if_pos h, if_pos (by omega)]
  · rw [if_neg h, if_neg (by omega)]

theorem readString_twin : Twin readString := readByteSlice_twin
theorem safeReadUTF8String_twin : Twin safeReadUTF8String := readByteSlice_twin.bind fun _ => Twin.pure _
theorem readRustString_twin : Twin readRustString := (readUint64_twin _).bind fun _ =>
  Twin.ite (fun _ => Twin.err _) fun _ => readNBytes_twin _
theorem readOption_twin : Twin readOption := readByte_twin.bind fun _ => Twin.pure _
theorem readCOption_twin : Twin readCOption := (readUint32_twin _).bind fun _ => Twin.ite (fun _ => Twin.err _) fun _ => Twin.pure _
theorem readBool_twin : Twin readBool :=
  Twin.get (fun n _ _ => if n < 1 then M.err .notEnough else do
    let b ← readByte
    pure (b != 0)) (fun _ => rfl) fun n _ _ => Twin.ite (fun _ => Twin.err _) fun _ => readByte_twin.bind fun _ => Twin.pure _

/-! ### reflection -/

theorem unmarshalLib_twin (l : Lib) (old : Val) : Twin (unmarshalLib l old) := by
  cases l <;> simp only [unmarshalLib]
  case safeString => exact safeReadUTF8String_twin.bind fun _ => Twin.pure _
  case bool => exact readBool_twin.bind fun _ => Twin.pure _
  case hexBytes => exact readByteSlice_twin.bind fun _ => Twin.pure _
  case varint16 => exact readVarint16_twin.bind fun _ => Twin.pure _
  case varuint16 => exact readUvarint16_twin.bind fun _ => Twin.pure _
  case varuint32 => exact readUvarint64_twin.bind fun _ => Twin.pure _
  case varint32 => exact readVarint32_twin.bind fun _ => Twin.pure _
  case jsonFloat64 =>
    refine Twin.get (fun _ _ c => match c with
      | none => M.panic
      | some o => do let n ← readFloat64 o; Pure.pure (.float n)) (fun _ => rfl) fun _ _ c => ?_
    cases c with
    | none => exact Twin.panic
    | some o => exact (readFloat64_twin o).bind fun _ => Twin.pure _
  case int64 =>
    refine Twin.get (fun _ _ c => match c with
      | none => M.panic
      | some o => do let n ← readInt64 o; Pure.pure (.int n)) (fun _ => rfl) fun _ _ c => ?_
    cases c with
    | none => exact Twin.panic
    | some o => exact (readInt64_twin o).bind fun _ => Twin.pure _
  case uint64 =>
    refine Twin.get (fun _ _ c => match c with
      | none => M.panic
      | some o => do let n ← readUint64 o; Pure.pure (.uint n)) (fun _ => rfl) fun _ _ c => ?_
    cases c with
    | none => exact Twin.panic
    | some o => exact (readUint64_twin o).bind fun _ => Twin.pure _
  case uint128 =>
    exact Twin.get (fun _ _ c => (readUint128 (order128 c old.endianness) >>= fun r => Pure.pure (Val.u128 r.1 r.2 none)))
      (fun _ => rfl) fun _ _ c => (readUint128_twin _).bind fun _ => Twin.pure _
  case int128 =>
    exact Twin.get (fun _ _ c => (readUint128 (order128 c old.endianness) >>= fun r => Pure.pure (Val.u128 r.1 r.2 none)))
      (fun _ => rfl) fun _ _ c => (readUint128_twin _).bind fun _ => Twin.pure _
  case float128 =>
    exact Twin.get (fun _ _ c => (readUint128 (order128 c old.endianness) >>= fun r => Pure.pure (Val.u128 r.1 r.2 none)))
      (fun _ => rfl) fun _ _ c => (readUint128_twin _).bind fun _ => Twin.pure _
  case emptyVariant => exact Twin.pure _

theorem readUintW_twin (w : Width) (o : Order) : Twin (readUintW w o) := by
  cases w
  · exact readUint8_twin
  · exact readUint16_twin _
  · exact readUint32_twin _
  · exact readUint64_twin _

theorem Twin.enough {α : Type} {n : Int} {r : DM α} (h : Twin r) :
    Twin (M.get >>= fun d : Dec => if n > d.remaining then M.err .eof else r) :=
  Twin.get (fun k _ _ => if n > k then M.err .eof else r) (fun _ => rfl) fun _ _ _ => Twin.ite (fun _ => Twin.err _) fun _ => h

theorem readUints_twin (l : Int) (w : Width) : Twin (readUints l w) := by
  unfold readUints
  refine Twin.enough ?_
  have hword : Twin (if l < 0 then M.panic else do
        let ns ← repeatM (readUintW w .le) l.toNat
        Pure.pure (ns.map Val.uint)) :=
    Twin.ite (fun _ => Twin.panic) fun _ => ((readUintW_twin w .le).repeat _).bind fun _ => Twin.pure _
  cases w
  · exact (readNBytes_twin l).bind fun _ => Twin.pure _
  · exact hword
  · exact hword
  · exact hword

theorem readSeqLen_twin (e : Encoding) : Twin (readSeqLen e) := by
  cases e
  · exact readLength_twin
  · exact readCompactU16_twin
  · exact readUint32_twin _
  · exact Twin.panic

theorem readFlag_twin (e : Encoding) : Twin (readFlag e) := by
  cases e
  · exact (readUint32_twin _).bind fun _ => Twin.pure _
  · exact readByte_twin.bind fun _ => Twin.pure _
  · exact readOption_twin
  · exact readByte_twin.bind fun _ => Twin.pure _

theorem decScalar_twin (e : Encoding) (k : Kind) (o : Order) : Twin (decScalar e k o) := by
  cases k <;> simp only [decScalar] <;> try exact Twin.panic
  · exact readBool_twin.bind fun _ => Twin.pure _
  · rename_i w
    cases w <;> simp only [decScalar]
    · exact readByte_twin.bind fun _ => Twin.pure _
    · exact (readUint16_twin _).bind fun _ => Twin.pure _
    · exact (readUint32_twin _).bind fun _ => Twin.pure _
    · exact (readUint64_twin _).bind fun _ => Twin.pure _
  · rename_i w
    cases w <;> simp only [decScalar]
    · exact readInt8_twin.bind fun _ => Twin.pure _
    · exact (readInt16_twin _).bind fun _ => Twin.pure _
    · exact (readInt32_twin _).bind fun _ => Twin.pure _
    · exact (readInt64_twin _).bind fun _ => Twin.pure _
  · exact (readFloat32_twin _).bind fun _ => Twin.pure _
  · exact (readFloat64_twin _).bind fun _ => Twin.pure _
  · exact Twin.bind (Twin.ite (fun _ => readRustString_twin) fun _ => readString_twin) fun _ => Twin.pure _

theorem Twin.set {α : Type} {r : DM α} (h : Twin r) (o : Order) : Twin (setCurD o >>= fun _ => r) := (Twin.setCur o).bind fun _ => h

theorem decField_twin (e : Encoding) (t : Ty) (o : Opt) (old : Val) (core : DM Val) (h : Twin core) :
    Twin (decField e t o old core) := by
  unfold decField
  refine Twin.set ?_ _
  refine Twin.ite (fun _ => Twin.ite (fun _ => Twin.panic) fun _ => ?_) fun _ => Twin.ite (fun _ => ?_) fun _ => h
  · refine (readFlag_twin e).bind fun b => Twin.ite (fun _ => ?_) fun _ => Twin.pure _
    refine Twin.ite (fun _ => Twin.ite (fun _ => Twin.panic) fun _ => ?_) fun _ => h
    exact readCOption_twin.bind fun b => Twin.ite (fun _ => h) fun _ => Twin.pure _
  · exact Twin.ite (fun _ => Twin.panic) fun _ => readCOption_twin.bind fun b => Twin.ite (fun _ => h) fun _ => Twin.pure _

theorem recordSize_twin (m : FieldMeta) (t : Ty) (x : Val) (sm : List (Bytes × Int)) : Twin (recordSize m t x sm) := by
  unfold recordSize
  exact Twin.ite (fun _ => Twin.pure _) fun _ => (Twin.lift _).bind fun _ => Twin.pure _

theorem extensionEnds_twin (m : FieldMeta) : Twin (extensionEnds m) := by
  unfold extensionEnds
  exact Twin.ite (fun _ => Twin.restM.bind fun _ => Twin.pure _) fun _ => Twin.pure _

mutual
theorem decCore_twin (e : Encoding) : (t : Ty) → (o : Opt) → (old : Val) → Twin (decCore e t o old)
  | .lib l, o, old => by simp only [decCore]; exact unmarshalLib_twin l old
  | .ptr t, o, old => by
    simp only [decCore]; exact (decCore_twin e t o _).bind fun _ => Twin.pure _
  | .slice t, o, old => by
    simp only [decCore]
    have ht := decCore_twin e t {} t.zero
    have hcont : ∀ l : Int, Twin (if e = .borsh ∧ l = 0 then Pure.pure old
        else do
          let d ← M.get
          if l > d.remaining then M.err .eof
          else
            match t.uintKind with
            | some w => do
              let xs ← readUints l w
              Pure.pure (.seq (some xs))
            | none => do
              let xs ← repeatM (do setCurD .le; decCore e t {} t.zero) l.toNat
              Pure.pure (.seq (some xs))) := by
      intro l
      refine Twin.ite (fun _ => Twin.pure _) fun _ => Twin.enough ?_
      cases t.uintKind with
      | some w => exact (readUints_twin l w).bind fun _ => Twin.pure _
      | none => exact ((ht.set _).repeat _).bind fun _ => Twin.pure _
    cases o.sizeOf with
    | some s => exact (Twin.pure s).bind hcont
    | none => exact (readSeqLen_twin e).bind fun n => hcont n
  | .array n t, o, old => by
    simp only [decCore]
    have ht := decCore_twin e t
    cases t.uintKind with
    | some w => exact (readUints_twin n w).bind fun _ => Twin.pure _
    | none => exact (Twin.traverse _ fun y => (ht {} y).set _).bind fun _ => Twin.pure _
  | .map k t, o, old => by
    simp only [decCore]
    refine (readSeqLen_twin e).bind fun l => Twin.ite (fun _ => Twin.pure _) fun _ => ?_
    refine (Twin.repeat ?_ l).bind fun _ => Twin.pure _
    exact ((decCore_twin e k {} _).bind fun x => ((decCore_twin e t {} _).bind fun y => Twin.pure _).set _).set _
  | .struct fs, o, old => by
    simp only [decCore, decStruct]
    refine Twin.ite (fun _ => ?_) fun _ => (decFields_twin e fs [] false _).bind fun _ => Twin.pure _
    refine readUint8_twin.bind fun tag => Twin.ite (fun _ => Twin.err _) fun _ => ?_
    exact (decNth_twin e fs _ _).bind fun _ => Twin.pure _
  | .iface, _, _ => by simp only [decCore]; exact Twin.pure _
  | .bool, o, _ => by simp only [decCore]; exact decScalar_twin _ _ _
  | .uint w _, o, _ => by simp only [decCore]; exact decScalar_twin _ _ _
  | .int w _, o, _ => by simp only [decCore]; exact decScalar_twin _ _ _
  | .borshEnum, o, _ => by simp only [decCore]; exact decScalar_twin _ _ _
  | .f32, o, _ => by simp only [decCore]; exact decScalar_twin _ _ _
  | .f64, o, _ => by simp only [decCore]; exact decScalar_twin _ _ _
  | .str, o, _ => by simp only [decCore]; exact decScalar_twin _ _ _
  | .plainInt, _, _ => by simp only [decCore]; exact Twin.err _
  | .plainUint, _, _ => by simp only [decCore]; exact Twin.err _
  | .other, _, _ => by simp only [decCore]; exact Twin.err _
termination_by structural t => t
theorem decFields_twin (e : Encoding) : (fs : Fields) → (sm : List (Bytes × Int)) →
    (seen : Bool) → (vs : List Val) → Twin (decFields e fs sm seen vs)
  | .nil, _, _, _ => by simp only [decFields]; exact Twin.pure _
  | .cons m t fs, _, _, [] => by simp only [decFields]; exact Twin.panic
  | .cons m t fs, sm, seen, v :: vs => by
    have hrec := decFields_twin e fs
    simp only [decFields]
    refine Twin.ite (fun _ => (hrec _ _ _).bind fun _ => Twin.pure _) fun hsk => Twin.ite (fun _ => Twin.panic) fun _ => ?_
    refine (extensionEnds_twin m).bind fun atEnd => Twin.ite (fun _ => (hrec _ _ _).bind fun _ => Twin.pure _) fun _ => ?_
    cases (if e = .borsh then t.directLib else none) with
    | some p => exact (unmarshalLib_twin _ _).bind fun _ => (hrec _ _ _).bind fun _ => Twin.pure _
    | none =>
      exact (decField_twin e t _ v _ (decCore_twin e t _ v)).bind fun x => (recordSize_twin m t x sm).bind fun sm' =>
        (hrec _ _ _).bind fun _ => Twin.pure _
termination_by structural fs => fs
theorem decNth_twin (e : Encoding) : (fs : Fields) → (i : Nat) → (vs : List Val) →
    Twin (decNth e fs i vs)
  | .nil, i, vs => by simp only [decNth]; exact Twin.panic
  | .cons m t fs, i, [] => by simp only [decNth]; exact Twin.panic
  | .cons m t fs, 0, v :: vs => by
    simp only [decNth]
    exact ((decCore_twin e t {} v).bind fun _ => Twin.pure _).set _
  | .cons m t fs, i + 1, v :: vs => by
    simp only [decNth]
    exact (decNth_twin e fs i vs).bind fun _ => Twin.pure _
termination_by structural fs => fs
end

theorem decode_twin (t : Ty) (old : Val) : Twin (decode t old) :=
  Twin.get (fun _ e _ => if e = .other then M.panic else do
    setCurD .le
    decCore e t {} old) (fun _ => rfl) fun _ e _ => Twin.ite (fun _ => Twin.panic) fun _ => (decCore_twin e t {} old).set _

end Verif
