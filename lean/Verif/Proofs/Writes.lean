import Verif.Model.Encoder
import Verif.Proofs.Reads
/-!
`Writes e w bs`: on a writer that does not fail, the call `w` succeeds and appends exactly `bs`.
-/
set_option linter.unusedSimpArgs false
namespace Verif

/-- The writer behind the encoder never fails. -/
def Enc.NoFail (s : Enc) : Prop := ∀ l c, s.sink l c = true

/-- The encoder after the chunks `cs` were handed to its writer. -/
def Enc.push (s : Enc) (cs : List Bytes) : Enc :=
  { s with log := s.log ++ cs, count := s.count + cs.flatten.length }

@[simp] theorem Enc.push_enc (s : Enc) (cs) : (s.push cs).enc = s.enc := rfl
@[simp] theorem Enc.push_cur (s : Enc) (cs) : (s.push cs).cur = s.cur := rfl
@[simp] theorem Enc.push_sink (s : Enc) (cs) : (s.push cs).sink = s.sink := rfl
@[simp] theorem Enc.push_nil (s : Enc) : s.push [] = s := by simp [Enc.push]
@[simp] theorem Enc.push_push (s : Enc) (a b) : (s.push a).push b = s.push (a ++ b) := by
  simp [Enc.push, Nat.add_assoc]
theorem Enc.push_out (s : Enc) (cs) : (s.push cs).out = s.out ++ cs.flatten := by simp [Enc.push, Enc.out]
theorem Enc.push_written (s : Enc) (cs) : (s.push cs).written = s.written + cs.flatten.length := rfl
theorem Enc.NoFail.push {s : Enc} (h : s.NoFail) (cs) : (s.push cs).NoFail := h

def Writes (e : Encoding) (w : EM Unit) (bs : Bytes) : Prop :=
  ∀ s : Enc, s.enc = e → s.NoFail → ∃ cs : List Bytes, cs.flatten = bs ∧ w s = (.ok (), s.push cs)

theorem toWriter_ok {s : Enc} (h : s.NoFail) (b : Bytes) : toWriter b s = (.ok (), s.push [b]) := by
  simp [toWriter, h s.log b, Enc.push]

theorem Writes.pure {e : Encoding} : Writes e (pure ()) [] := fun s _ _ => ⟨[], rfl, by simp⟩

theorem Writes.seq {e : Encoding} {w1 w2 : EM Unit} {b1 b2 : Bytes} (h1 : Writes e w1 b1) (h2 : Writes e w2 b2) :
    Writes e (w1 >>= fun _ => w2) (b1 ++ b2) := by
  intro s he hf
  obtain ⟨c1, rfl, hw1⟩ := h1 s he hf
  obtain ⟨c2, rfl, hw2⟩ := h2 (s.push c1) he hf
  exact ⟨c1 ++ c2, by simp, by rw [M.bind_ok hw1, hw2, Enc.push_push]⟩

theorem toWriter_writes (e : Encoding) (b : Bytes) : Writes e (toWriter b) b :=
  fun s _ hf => ⟨[b], by simp, toWriter_ok hf b⟩

theorem writeByte_writes (e : Encoding) (b : UInt8) : Writes e (writeByte b) [b] := toWriter_writes e _
theorem writeUint8_writes (e : Encoding) (v : Nat) : Writes e (writeUint8 v) [UInt8.ofNat v] := toWriter_writes e _
theorem writeInt8_writes (e : Encoding) (v : Int) : Writes e (writeInt8 v) [UInt8.ofNat (toUnsigned 8 v)] := toWriter_writes e _
theorem writeUint16_writes (e : Encoding) (v : Nat) (o : Order) : Writes e (writeUint16 v o) (putUint o 2 v) := toWriter_writes e _
theorem writeUint32_writes (e : Encoding) (v : Nat) (o : Order) : Writes e (writeUint32 v o) (putUint o 4 v) := toWriter_writes e _
theorem writeUint64_writes (e : Encoding) (v : Nat) (o : Order) : Writes e (writeUint64 v o) (putUint o 8 v) := toWriter_writes e _
theorem writeInt16_writes (e : Encoding) (v : Int) (o : Order) : Writes e (writeInt16 v o) (putUint o 2 (toUnsigned 16 v)) := toWriter_writes e _
theorem writeInt32_writes (e : Encoding) (v : Int) (o : Order) : Writes e (writeInt32 v o) (putUint o 4 (toUnsigned 32 v)) := toWriter_writes e _
theorem writeInt64_writes (e : Encoding) (v : Int) (o : Order) : Writes e (writeInt64 v o) (putUint o 8 (toUnsigned 64 v)) := toWriter_writes e _
theorem writeUint128_writes (e : Encoding) (lo hi : Nat) (o : Order) : Writes e (writeUint128 lo hi o) (put128 o lo hi) := by
  cases o <;> exact toWriter_writes e _
theorem writeInt128_writes (e : Encoding) (lo hi : Nat) (o : Order) : Writes e (writeInt128 lo hi o) (put128 o lo hi) := by
  cases o <;> exact toWriter_writes e _
theorem writeBool_writes (e : Encoding) (b : Bool) : Writes e (writeBool b) [if b then 1 else 0] := toWriter_writes e _
theorem writeOption_writes (e : Encoding) (b : Bool) : Writes e (writeOption b) [if b then 1 else 0] := toWriter_writes e _
theorem writeCOption_writes (e : Encoding) (b : Bool) : Writes e (writeCOption b) (putUint .le 4 (if b then 1 else 0)) := toWriter_writes e _

theorem writeFloat32_writes (e : Encoding) (n : Nat) (o : Order) (h : ¬ (e = .borsh ∧ isNaN32 n)) :
    Writes e (writeFloat32 n o) (putUint o 4 n) := by
  intro s he hf
  refine ⟨[putUint o 4 n], by simp, ?_⟩
  unfold writeFloat32
  simp only [M.bind_apply, M.get_apply, he]
  rw [if_neg h, toWriter_ok hf]
theorem writeFloat64_writes (e : Encoding) (n : Nat) (o : Order) (h : ¬ (e = .borsh ∧ isNaN64 n)) :
    Writes e (writeFloat64 n o) (putUint o 8 n) := by
  intro s he hf
  refine ⟨[putUint o 8 n], by simp, ?_⟩
  unfold writeFloat64
  simp only [M.bind_apply, M.get_apply, he]
  rw [if_neg h, toWriter_ok hf]

theorem writeUVarInt_writes (e : Encoding) (v : Int) (h0 : 0 ≤ v) (h1 : v < 2 ^ 56) :
    Writes e (writeUVarInt v) (uvarintBytes 10 v.toNat) := by
  intro s he hf
  refine ⟨[uvarintBytes 10 v.toNat], by simp, ?_⟩
  unfold writeUVarInt
  rw [toUnsigned_of_nonneg h0 (by omega), putUvarint8_eq _ (by omega), if_pos (by omega)]
  simp [M.bind_apply, toWriter_ok hf]

theorem writeVarInt_writes (e : Encoding) (v : Int) (h1 : zigzag v < 2 ^ 56) :
    Writes e (writeVarInt v) (uvarintBytes 10 (zigzag v)) := by
  intro s he hf
  refine ⟨[uvarintBytes 10 (zigzag v)], by simp, ?_⟩
  unfold writeVarInt putVarint8
  rw [putUvarint8_eq _ (zigzag_lt v), if_pos h1]
  simp [M.bind_apply, toWriter_ok hf]

theorem writeRaw_writes (e : Encoding) (b : Bytes) : Writes e (writeRaw b) b := by
  intro s he hf
  unfold writeRaw
  by_cases h : b.length = 0
  · have : b = [] := List.length_eq_zero_iff.mp h
    subst this
    exact ⟨[], rfl, by simp⟩
  · rw [if_neg h]; exact toWriter_writes e b s he hf

theorem writeCompactU16_writes (e : Encoding) (n : Nat) (h : n ≤ 65535) :
    Writes e (writeCompactU16 n) (Spec.compact n) := by
  unfold writeCompactU16
  rw [encodeCompactU16Length_eq, if_pos (by omega)]
  exact toWriter_writes e _

/-- Largest length whose prefix is written faithfully. -/
def lenMaxW : Encoding → Nat
  | .bin => 2 ^ 56 - 1
  | .borsh => 2 ^ 32 - 1
  | .compactU16 => 65535
  | .other => 0

theorem writeLength_writes (e : Encoding) (he : e.valid = true) (n : Nat) (hn : n ≤ lenMaxW e) :
    Writes e (writeLength n) (lenBytes e n) := by
  intro s hs hf
  unfold writeLength
  rw [M.bind_apply]
  simp only [M.get_apply, hs]
  cases e with
  | bin =>
    simp only [lenMaxW] at hn
    simpa [lenBytes] using writeUVarInt_writes .bin n (by omega) (by omega) s hs hf
  | borsh =>
    simp only [lenMaxW] at hn
    rw [toUnsigned_natCast (by omega)]
    exact writeUint32_writes .borsh n .le s hs hf
  | compactU16 =>
    simp only [lenMaxW] at hn
    rw [encodeCompactU16Length_eq, if_pos (by omega)]
    exact writeRaw_writes .compactU16 _ s hs hf
  | other => simp [Encoding.valid] at he

theorem writeBytes_writes (e : Encoding) (he : e.valid = true) (b : Bytes) (hn : b.length ≤ lenMaxW e) :
    Writes e (writeBytes b true) (lenBytes e b.length ++ b) := by
  unfold writeBytes
  rw [if_pos rfl]
  exact (writeLength_writes e he _ hn).seq (writeRaw_writes e b)

theorem writeBytesRaw_writes (e : Encoding) (b : Bytes) : Writes e (writeBytes b false) b := by
  unfold writeBytes; simpa using writeRaw_writes e b

theorem writeRustString_writes (e : Encoding) (s : Bytes) (h : s.length < 2 ^ 64) :
    Writes e (writeRustString s) (putUint .le 8 s.length ++ s) := by
  unfold writeRustString
  rw [toUnsigned_natCast h]
  exact (writeUint64_writes e _ .le).seq (writeBytesRaw_writes e s)

end Verif
