import Verif.Spec.ByteOrders
import Verif.Proofs.Bridge
/-!
# C98: byte orders other than `binary.LittleEndian` and `binary.BigEndian`
-/
namespace Verif.Props
open Verif Verif.Spec

/-! ### the two constants -/

/-- With the two constants these are the calls of the other properties. -/
theorem C98_std (o : Order) :
    readUint16O (.std o) = readUint16 o ∧ readInt16O (.std o) = readInt16 o ∧
    readUint32O (.std o) = readUint32 o ∧ readInt32O (.std o) = readInt32 o ∧
    readUint64O (.std o) = readUint64 o ∧ readInt64O (.std o) = readInt64 o ∧
    readUint128O (.std o) = readUint128 o ∧ readFloat32O (.std o) = readFloat32 o ∧ readFloat64O (.std o) = readFloat64 o ∧
    (∀ v, writeUint16O v (.std o) = writeUint16 v o) ∧ (∀ v, writeInt16O v (.std o) = writeInt16 v o) ∧
    (∀ v, writeUint32O v (.std o) = writeUint32 v o) ∧ (∀ v, writeInt32O v (.std o) = writeInt32 v o) ∧
    (∀ v, writeUint64O v (.std o) = writeUint64 v o) ∧ (∀ v, writeInt64O v (.std o) = writeInt64 v o) ∧
    (∀ lo hi, writeUint128O lo hi (.std o) = writeUint128 lo hi o) ∧
    (∀ n, writeFloat32O n (.std o) = writeFloat32 n o) ∧ (∀ n, writeFloat64O n (.std o) = writeFloat64 n o) ∧
    (∀ lo hi, u128BytesO lo hi (.std o) = .ok (U128.bytes ⟨lo, hi, some o⟩)) ∧
    (∀ lo hi, u128BytesO lo hi .nil = .ok (U128.bytes ⟨lo, hi, none⟩)) := by
  cases o <;> exact ⟨rfl, rfl, rfl, rfl, rfl, rfl, rfl, rfl, rfl, fun _ => rfl, fun _ => rfl, fun _ => rfl, fun _ => rfl, fun _ => rfl,
    fun _ => rfl, fun _ _ => rfl, fun _ => rfl, fun _ => rfl, fun _ _ => rfl, fun _ _ => rfl⟩

/-- The two constants and `binary.NativeEndian` meet the expectation, for every width. -/
theorem C98_inverse (o : Order) (k : Nat) : Inverse (.std o) k ∧ Inverse (native o) k := by
  refine ⟨fun v hv => ⟨putUint o k v, putUint_length .., rfl, fun rest => getUint_putUint _ _ _ _ hv⟩,
    fun v hv => ⟨putUint o k v, putUint_length .., rfl, fun rest => ?_⟩⟩
  simp only [native, ByteOrder.get, getUint_putUint _ _ _ _ hv]

/-! ### round trips -/

private theorem emits_put {e : Encoding} {o : ByteOrder} {k v : Nat} {b : Bytes} (hp : o.put k v = .ok b) :
    ∀ s : Enc, s.enc = e → NoFail s → Emits (do let b ← M.lift (o.put k v); toWriter b) s b := by
  intro s _ hf
  refine ⟨{ s with count := s.count + b.length, log := s.log ++ [b] }, ?_, ?_, rfl, rfl, rfl, rfl⟩
  · rw [M.bind_ok (show M.lift (o.put k v) s = (.ok b, s) by rw [hp]; rfl)]
    unfold toWriter
    rw [if_pos (hf _ _)]
  · simp

private theorem consumes_get {e : Encoding} {o : ByteOrder} {k v : Nat} {b : Bytes} (hb : b.length = k)
    (hg : ∀ rest, o.get k (b ++ rest) = .ok v) {α : Type} (f : Encoding → Nat → DM α) (a : α) (hf : ∀ d, d.enc = e → f e v d = (.ok a, d)) :
    Consumes e (do
      let d ← M.get
      if d.remaining < (k : Int) then M.err .notEnough
      else do
        let b ← restM
        let n ← M.lift (o.get k b)
        advance k
        f d.enc n) b a := by
  intro cur pre post
  have hok := decAt_ok e cur pre (b ++ post)
  have hl := Dec.rest_length hok
  rw [decAt_rest, List.length_append] at hl
  rw [M.bind_ok (M.get_apply _), if_neg (by omega), M.bind_ok (restM_ok hok), decAt_rest]
  rw [M.bind_ok (show M.lift (o.get k (b ++ post)) _ = (.ok v, _) by rw [hg]; rfl)]
  rw [M.bind_ok (advance_apply k _), show (decAt e cur pre (b ++ post)).enc = e from rfl]
  rw [← hb, decAt_adv, hf _ rfl]

/-- Integers of 2, 4 and 8 bytes: what is written with any such order is read back with it. Partial: not for 128-bit integers, see
`C98_128` and `C98_violated`. -/
theorem C98_uints_partial (e : Encoding) (o : ByteOrder) (v : Nat) :
    (Inverse o 2 → v < 2 ^ 16 → RoundTrip e (writeUint16O v o) (readUint16O o) 2 v) ∧
    (Inverse o 4 → v < 2 ^ 32 → RoundTrip e (writeUint32O v o) (readUint32O o) 4 v) ∧
    (Inverse o 8 → v < 2 ^ 64 → RoundTrip e (writeUint64O v o) (readUint64O o) 8 v) := by
  refine ⟨fun ho hv => ?_, fun ho hv => ?_, fun ho hv => ?_⟩
  · obtain ⟨b, hb, hp, hg⟩ := ho v hv
    exact ⟨b, hb, emits_put hp, consumes_get hb hg (fun _ n => pure n) v fun _ _ => rfl⟩
  · obtain ⟨b, hb, hp, hg⟩ := ho v hv
    exact ⟨b, hb, emits_put hp, consumes_get hb hg (fun _ n => pure n) v fun _ _ => rfl⟩
  · obtain ⟨b, hb, hp, hg⟩ := ho v hv
    refine ⟨b, hb, emits_put hp, ?_⟩
    intro cur pre post
    have hok := decAt_ok e cur pre (b ++ post)
    have hl := Dec.rest_length hok
    rw [decAt_rest, List.length_append] at hl
    unfold readUint64O
    rw [M.bind_ok (M.get_apply _), if_neg (by omega)]
    have hr : readNBytes 8 (decAt e cur pre (b ++ post)) = (.ok b, decAt e cur (pre ++ b) post) := by
      rw [readNBytes_eq hok, if_neg (by decide), if_neg (by decide), decAt_rest, if_neg (by rw [List.length_append]; omega)]
      rw [show (8 : Int).toNat = b.length by rw [hb]; rfl, List.take_left, decAt_adv]
    rw [M.bind_ok hr]
    have := hg []
    rw [List.append_nil] at this
    rw [this]
    rfl

/-- Signed integers. -/
theorem C98_ints_partial (e : Encoding) (o : ByteOrder) (z : Int) :
    (Inverse o 2 → -2 ^ 15 ≤ z → z < 2 ^ 15 → RoundTrip e (writeInt16O z o) (readInt16O o) 2 z) ∧
    (Inverse o 4 → -2 ^ 31 ≤ z → z < 2 ^ 31 → RoundTrip e (writeInt32O z o) (readInt32O o) 4 z) ∧
    (Inverse o 8 → -2 ^ 63 ≤ z → z < 2 ^ 63 → RoundTrip e (writeInt64O z o) (readInt64O o) 8 z) := by
  refine ⟨fun ho h1 h2 => ?_, fun ho h1 h2 => ?_, fun ho h1 h2 => ?_⟩
  · obtain ⟨b, hb, hw, hr⟩ := (C98_uints_partial e o (toUnsigned 16 z)).1 ho (toUnsigned_lt 16 z)
    refine ⟨b, hb, hw, fun cur pre post => ?_⟩
    unfold readInt16O
    rw [M.bind_ok (hr cur pre post), toSigned_toUnsigned (b := 16) (by decide) h1 h2]
    rfl
  · obtain ⟨b, hb, hw, hr⟩ := (C98_uints_partial e o (toUnsigned 32 z)).2.1 ho (toUnsigned_lt 32 z)
    refine ⟨b, hb, hw, fun cur pre post => ?_⟩
    unfold readInt32O
    rw [M.bind_ok (hr cur pre post), toSigned_toUnsigned (b := 32) (by decide) h1 h2]
    rfl
  · obtain ⟨b, hb, hw, hr⟩ := (C98_uints_partial e o (toUnsigned 64 z)).2.2 ho (toUnsigned_lt 64 z)
    refine ⟨b, hb, hw, fun cur pre post => ?_⟩
    unfold readInt64O
    rw [M.bind_ok (hr cur pre post), toSigned_toUnsigned (b := 64) (by decide) h1 h2]
    rfl

/-- Floats, by their bit patterns; NaN is refused in Borsh. -/
theorem C98_floats_partial (e : Encoding) (o : ByteOrder) (n : Nat) :
    (Inverse o 4 → n < 2 ^ 32 → ¬ (e = .borsh ∧ isNaN32 n = true) → RoundTrip e (writeFloat32O n o) (readFloat32O o) 4 n) ∧
    (Inverse o 8 → n < 2 ^ 64 → ¬ (e = .borsh ∧ isNaN64 n = true) → RoundTrip e (writeFloat64O n o) (readFloat64O o) 8 n) := by
  refine ⟨fun ho hv hn => ?_, fun ho hv hn => ?_⟩
  · obtain ⟨b, hb, hp, hg⟩ := ho n hv
    refine ⟨b, hb, fun s hs hf => ?_,
      consumes_get hb hg (fun e n => if e = .borsh ∧ isNaN32 n then M.err .nan else pure n) n fun d _ => by rw [if_neg hn]; rfl⟩
    obtain ⟨s', h1, h2⟩ := emits_put (e := e) hp s hs hf
    refine ⟨s', ?_, h2⟩
    unfold writeFloat32O
    rw [M.bind_ok (M.get_apply _), hs, if_neg hn, h1]
  · obtain ⟨b, hb, hp, hg⟩ := ho n hv
    refine ⟨b, hb, fun s hs hf => ?_,
      consumes_get hb hg (fun e n => if e = .borsh ∧ isNaN64 n then M.err .nan else pure n) n fun d _ => by rw [if_neg hn]; rfl⟩
    obtain ⟨s', h1, h2⟩ := emits_put (e := e) hp s hs hf
    refine ⟨s', ?_, h2⟩
    unfold writeFloat64O
    rw [M.bind_ok (M.get_apply _), hs, if_neg hn, h1]

/-! ### 128-bit integers -/

/-- 128-bit integers with an order that is not one of the two constants: writing fails before anything is written; reading takes the first
eight bytes for the high word. -/
theorem C98_128 (m : OrderMethods) (h8 : Inverse (.other m) 8) (lo hi : Nat) (hlo : lo < 2 ^ 64) (hhi : hi < 2 ^ 64) :
    (∀ s, writeUint128O lo hi (.other m) s = (.err .byteOrder, s)) ∧
    ∃ a b, (ByteOrder.other m).put 8 hi = .ok a ∧ (ByteOrder.other m).put 8 lo = .ok b ∧ u128BytesO lo hi (.other m) = .ok (a ++ b) ∧
      ∀ e, Consumes e (readUint128O (.other m)) (a ++ b) (lo, hi) := by
  refine ⟨fun s => rfl, ?_⟩
  obtain ⟨a, ha, hpa, hga⟩ := h8 hi hhi
  obtain ⟨b, hb, hpb, hgb⟩ := h8 lo hlo
  refine ⟨a, b, hpa, hpb, ?_, fun e cur pre post => ?_⟩
  · unfold u128BytesO
    simp only [ByteOrder.orDefault, ByteOrder.isLE, hpa, hpb]
    rfl
  · have hok := decAt_ok e cur pre (a ++ b ++ post)
    have hl := Dec.rest_length hok
    rw [decAt_rest, List.length_append, List.length_append] at hl
    have hs : sliceM 16 (decAt e cur pre (a ++ b ++ post)) = (.ok (a ++ b), decAt e cur pre (a ++ b ++ post)) := by
      have := sliceM_ok hok (n := 16) (by rw [decAt_rest, List.length_append, List.length_append]; omega)
      rw [show (16 : Int) = ((16 : Nat) : Int) from rfl, this, decAt_rest,
        show 16 = (a ++ b).length by rw [List.length_append]; omega, List.take_left]
    unfold readUint128O
    rw [M.bind_ok (M.get_apply _), if_neg (by omega), M.bind_ok hs]
    have e1 : (a ++ b).take 8 = a := by rw [← ha, List.take_left]
    have e2 : (a ++ b).drop 8 = b := by rw [← ha, List.drop_left]
    have g1 : (ByteOrder.other m).get 8 a = .ok hi := by have := hga []; rwa [List.append_nil] at this
    have g2 : (ByteOrder.other m).get 8 b = .ok lo := by have := hgb []; rwa [List.append_nil] at this
    rw [show (ByteOrder.other m).isLE = false from rfl, if_neg (by decide), e1, e2, g1, g2]
    simp only [M.bind_apply, M.lift_apply, M.pure_apply]
    rw [show (16 : Int) = ((a ++ b).length : Nat) by rw [List.length_append]; omega, advance_apply, decAt_adv]

/-- `binary.NativeEndian` on a little-endian machine swaps the words that `binary.LittleEndian` reads, on every input. -/
theorem C98_native (d : Dec) : readUint128O (native .le) d =
    (match (readUint128 .le d).1 with | .ok (lo, hi) => .ok (hi, lo) | .err x => .err x | .panic => .panic, (readUint128 .le d).2) := by
  unfold readUint128O readUint128
  simp only [M.bind_apply, M.get_apply]
  by_cases h16 : d.remaining < 16
  · rw [if_pos h16, if_pos h16]; rfl
  · rw [if_neg h16, if_neg h16]
    simp only [M.bind_apply]
    unfold sliceM
    split
    · rename_i hc
      split at hc
      · cases hc
        rename_i hin
        have hlen : (((d.data.drop d.pos.toNat).take (16 : Int).toNat)).length = 16 := by
          rw [List.length_take, List.length_drop]
          simp only [Dec.remaining] at h16
          show min 16 _ = 16
          omega
        generalize (d.data.drop d.pos.toNat).take (16 : Int).toNat = x at hlen
        obtain ⟨u, hu, -⟩ := getUint_ok .le 8 (x.take 8) (by rw [List.length_take]; omega)
        obtain ⟨w, hw, -⟩ := getUint_ok .le 8 (x.drop 8) (by rw [List.length_drop]; omega)
        simp only [native, ByteOrder.isLE, ByteOrder.get, hu, hw]
        rfl
      · cases hc
    · rename_i hc
      split at hc <;> cases hc
    · rfl

/-- The full statement of C98 is false: `WriteUint128` refuses `binary.NativeEndian`, `ReadUint128` exchanges the words, and a nil order
makes `ReadUint64` panic after the cursor has moved. -/
theorem C98_violated :
    (writeUint128O 1 0 (native .le) (Enc.new .bin)).1 = .err .byteOrder ∧
    (readUint128O (native .le) (Dec.new [1, 0, 0, 0, 0, 0, 0, 0, 0, 0, 0, 0, 0, 0, 0, 0] .bin)).1 = .ok (0, 1) ∧
    (readUint128O (.std .le) (Dec.new [1, 0, 0, 0, 0, 0, 0, 0, 0, 0, 0, 0, 0, 0, 0, 0] .bin)).1 = .ok (1, 0) ∧
    readUint64O .nil (Dec.new [1, 2, 3, 4, 5, 6, 7, 8] .bin) =
      (.panic, { Dec.new [1, 2, 3, 4, 5, 6, 7, 8] .bin with pos := 8 }) ∧
    u128BytesO 1 0 (native .le) = .ok [0, 0, 0, 0, 0, 0, 0, 0, 1, 0, 0, 0, 0, 0, 0, 0] ∧
    u128BytesO 1 0 (.std .le) = .ok [0, 0, 0, 0, 0, 0, 0, 0, 0, 0, 0, 0, 0, 0, 0, 1] :=
  ⟨by rfl, by rfl, by rfl, by rfl, by rfl, by rfl⟩

/-! ### nil -/

/-- A nil order, writing: every call panics and writes nothing, except that NaN in Borsh is refused first and 128-bit integers give an
error. -/
theorem C98_nil_writes (s : Enc) (v : Nat) (z : Int) (hi : Nat) :
    writeUint16O v .nil s = (.panic, s) ∧ writeUint32O v .nil s = (.panic, s) ∧ writeUint64O v .nil s = (.panic, s) ∧
    writeInt16O z .nil s = (.panic, s) ∧ writeInt32O z .nil s = (.panic, s) ∧ writeInt64O z .nil s = (.panic, s) ∧
    writeUint128O v hi .nil s = (.err .byteOrder, s) ∧
    writeFloat32O v .nil s = (if s.enc = .borsh ∧ isNaN32 v = true then .err .nan else .panic, s) ∧
    writeFloat64O v .nil s = (if s.enc = .borsh ∧ isNaN64 v = true then .err .nan else .panic, s) := by
  refine ⟨rfl, rfl, rfl, rfl, rfl, rfl, rfl, ?_, ?_⟩
  · unfold writeFloat32O
    rw [M.bind_ok (M.get_apply _)]
    by_cases h : s.enc = .borsh ∧ isNaN32 v = true
    · rw [if_pos h, if_pos h]; rfl
    · rw [if_neg h, if_neg h]; rfl
  · unfold writeFloat64O
    rw [M.bind_ok (M.get_apply _)]
    by_cases h : s.enc = .borsh ∧ isNaN64 v = true
    · rw [if_pos h, if_pos h]; rfl
    · rw [if_neg h, if_neg h]; rfl

/-- A nil order, reading: an error when there are too few bytes, a panic otherwise; the cursor stays, except that `ReadUint64` and
`ReadInt64` move it before they panic. -/
theorem C98_nil_reads (d : Dec) (hd : Inside d) :
    readUint16O .nil d = (if left d < 2 then .err .notEnough else .panic, d) ∧
    readUint32O .nil d = (if left d < 4 then .err .notEnough else .panic, d) ∧
    readUint64O .nil d = (if left d < 8 then (.err .notEnough, d) else (.panic, { d with pos := d.pos + 8 })) ∧
    readUint128O .nil d = (if left d < 16 then .err .notEnough else .panic, d) ∧
    readFloat32O .nil d = (if left d < 4 then .err .notEnough else .panic, d) ∧
    readFloat64O .nil d = (if left d < 8 then .err .notEnough else .panic, d) := by
  have hok : d.Ok := hd
  have hl := Dec.rest_length hok
  have hrem : d.remaining = left d := rfl
  have key : ∀ (k : Nat) (f : Dec → Nat → DM Nat), ((do
      let d ← M.get
      if d.remaining < (k : Int) then M.err .notEnough
      else do
        let b ← restM
        let n ← M.lift (ByteOrder.nil.get k b)
        advance k
        f d n : DM Nat) d) = (if left d < k then .err .notEnough else .panic, d) := by
    intro k f
    rw [M.bind_ok (M.get_apply _), hrem]
    by_cases h : left d < k
    · rw [if_pos h, if_pos h]; rfl
    · rw [if_neg h, if_neg h, M.bind_ok (restM_ok hok)]; rfl
  refine ⟨key 2 fun _ => pure, key 4 fun _ => pure, ?_, ?_,
    key 4 fun d n => if d.enc = .borsh ∧ isNaN32 n then M.err .nan else pure n,
    key 8 fun d n => if d.enc = .borsh ∧ isNaN64 n then M.err .nan else pure n⟩
  · unfold readUint64O
    rw [M.bind_ok (M.get_apply _), hrem]
    by_cases h : left d < 8
    · rw [if_pos h, if_pos h]; rfl
    · rw [if_neg h, if_neg h]
      rw [M.bind_ok (show readNBytes 8 d = (.ok (d.rest.take 8), d.adv 8) by
        rw [readNBytes_eq hok, if_neg (by decide), if_neg (by decide), if_neg (by omega)]; rfl)]
      rfl
  · unfold readUint128O
    rw [M.bind_ok (M.get_apply _), hrem]
    by_cases h : left d < 16
    · rw [if_pos h, if_pos h]; rfl
    · rw [if_neg h, if_neg h, M.bind_ok (show sliceM 16 d = (.ok (d.rest.take 16), d) from sliceM_ok hok (n := 16) (by omega))]
      rfl

/-! ### methods of the caller's own -/

/-- An implementation by the caller, reading: `Uint16` and `Uint32` get the whole rest of the input, `Uint64` the next eight bytes, or the rest
for a float; whatever they return is the result, and if they panic so does the call, `ReadUint64` after moving the cursor. -/
theorem C98_own_reads (m : OrderMethods) (d : Dec) (hd : Inside d) :
    (2 ≤ left d → readUint16O (.other m) d = match m.get 2 (d.data.drop d.pos.toNat) with
      | some v => (.ok v, { d with pos := d.pos + 2 })
      | none => (.panic, d)) ∧
    (4 ≤ left d → readUint32O (.other m) d = match m.get 4 (d.data.drop d.pos.toNat) with
      | some v => (.ok v, { d with pos := d.pos + 4 })
      | none => (.panic, d)) ∧
    (8 ≤ left d → readUint64O (.other m) d = match m.get 8 ((d.data.drop d.pos.toNat).take 8) with
      | some v => (.ok v, { d with pos := d.pos + 8 })
      | none => (.panic, { d with pos := d.pos + 8 })) ∧
    (8 ≤ left d → readFloat64O (.other m) d = match m.get 8 (d.data.drop d.pos.toNat) with
      | some v => (if d.enc = .borsh ∧ isNaN64 v = true then .err .nan else .ok v, { d with pos := d.pos + 8 })
      | none => (.panic, d)) := by
  have hok : d.Ok := hd
  have hl := Dec.rest_length hok
  have hrem : d.remaining = left d := rfl
  have key : ∀ (k : Nat) (f : Dec → Nat → DM Nat), k ≤ left d → ((do
      let d ← M.get
      if d.remaining < (k : Int) then M.err .notEnough
      else do
        let b ← restM
        let n ← M.lift ((ByteOrder.other m).get k b)
        advance k
        f d n : DM Nat) d) = match m.get k (d.data.drop d.pos.toNat) with
          | some v => f d v { d with pos := d.pos + k }
          | none => (.panic, d) := by
    intro k f h
    rw [M.bind_ok (M.get_apply _), hrem, if_neg (by omega), M.bind_ok (restM_ok hok),
      show d.rest = d.data.drop d.pos.toNat from rfl]
    cases hg : m.get k (d.data.drop d.pos.toNat) with
    | none => simp only [ByteOrder.get, hg]; rfl
    | some v => simp only [ByteOrder.get, hg]; rfl
  refine ⟨key 2 fun _ => pure, key 4 fun _ => pure, fun h => ?_, fun h => ?_⟩
  · unfold readUint64O
    rw [M.bind_ok (M.get_apply _), hrem, if_neg (by omega)]
    rw [M.bind_ok (show readNBytes 8 d = (.ok (d.rest.take 8), d.adv 8) by
      rw [readNBytes_eq hok, if_neg (by decide), if_neg (by decide), if_neg (by omega)]; rfl),
      show d.rest = d.data.drop d.pos.toNat from rfl]
    cases hg : m.get 8 ((d.data.drop d.pos.toNat).take 8) with
    | none => simp only [ByteOrder.get, hg]; rfl
    | some v => simp only [ByteOrder.get, hg]; rfl
  · refine (key 8 (fun d n => if d.enc = .borsh ∧ isNaN64 n then M.err .nan else pure n) h).trans ?_
    cases m.get 8 (d.data.drop d.pos.toNat) with
    | none => rfl
    | some v =>
      by_cases hn : d.enc = .borsh ∧ isNaN64 v = true
      · simp only [if_pos hn]; rfl
      · simp only [if_neg hn]; rfl

/-- An implementation by the caller, writing: what `PutUintN` leaves in the buffer is written; if it panics nothing is. -/
theorem C98_own_writes (m : OrderMethods) (s : Enc) (v : Nat) :
    (writeUint16O v (.other m) s = match m.put 2 v with | some b => toWriter b s | none => (.panic, s)) ∧
    (writeUint32O v (.other m) s = match m.put 4 v with | some b => toWriter b s | none => (.panic, s)) ∧
    (writeUint64O v (.other m) s = match m.put 8 v with | some b => toWriter b s | none => (.panic, s)) := by
  refine ⟨?_, ?_, ?_⟩
  · unfold writeUint16O ByteOrder.put
    cases h : m.put 2 v with
    | none => simp only [h]; rfl
    | some b => simp only [h]; rfl
  · unfold writeUint32O ByteOrder.put
    cases h : m.put 4 v with
    | none => simp only [h]; rfl
    | some b => simp only [h]; rfl
  · unfold writeUint64O ByteOrder.put
    cases h : m.put 8 v with
    | none => simp only [h]; rfl
    | some b => simp only [h]; rfl

/-! ### `MarshalWithEncoder` of the 128-bit types -/

/-- The `Endianness` of a 128-bit value counts only outside `Encode`; there every order but nil and the two constants is refused. -/
theorem C98_marshal (lo hi : Nat) (o : ByteOrder) (s : Enc) :
    (∀ f, s.cur = some f → marshal128O lo hi o s = writeUint128 lo hi f s) ∧
    (s.cur = none → marshal128O lo hi o s = match o with
      | .nil => writeUint128 lo hi .le s
      | .std f => writeUint128 lo hi f s
      | .other _ => (.err .byteOrder, s)) := by
  unfold marshal128O
  rw [M.bind_ok (M.get_apply _)]
  refine ⟨fun f hf => ?_, fun hf => ?_⟩
  · rw [hf]
    exact congrFun ((C98_std f).2.2.2.2.2.2.2.2.2.2.2.2.2.2.2.1 lo hi) s
  · rw [hf]
    cases o with
    | nil => rfl
    | std f => exact congrFun ((C98_std f).2.2.2.2.2.2.2.2.2.2.2.2.2.2.2.1 lo hi) s
    | other m => rfl

/-! ### examples -/

/-- An order of the caller's own, least significant 16-bit word first, each word big-endian (PDP-11 the other way round). -/
def middle : ByteOrder := .other
  { get := fun k b => if k = 4 then match b with
      | a :: b :: c :: d :: _ => some (getLE [b, a, d, c])
      | _ => none else none
    put := fun k v => if k = 4 then match putLE 4 v with
      | [a, b, c, d] => some [b, a, d, c]
      | _ => none else none }

example : Inverse middle 4 := by
  intro v hv
  have h : getLE (putLE 4 v) = v := getLE_putLE 4 v hv
  have hl : (putLE 4 v).length = 4 := by simp
  rcases hx : putLE 4 v with _ | ⟨a, _ | ⟨b, _ | ⟨c, _ | ⟨d, _ | ⟨e, t⟩⟩⟩⟩⟩ <;> rw [hx] at hl <;> simp at hl
  rw [hx] at h
  refine ⟨[b, a, d, c], rfl, ?_, fun rest => ?_⟩
  · simp only [middle, ByteOrder.put, hx]
    rfl
  · simp only [middle, ByteOrder.get, List.cons_append]
    exact congrArg Res.ok h

example : (writeUint32O 0x01020304 middle (Enc.new .bin)).2.log = [[3, 4, 1, 2]] := by rfl
example : (readUint32O middle (Dec.new [3, 4, 1, 2, 9] .bin)).1 = .ok 0x01020304 := by rfl
-- no 16-bit numbers in this order
example : readUint16O middle (Dec.new [3, 4, 1] .bin) = (.panic, Dec.new [3, 4, 1] .bin) := by rfl

end Verif.Props
