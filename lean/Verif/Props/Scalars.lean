import Verif.Proofs.Bridge
import Verif.Proofs.WireBytes
/-! Properties C12-C16: booleans, flags, floats, length-prefixed bytes and strings. -/
namespace Verif.Props
open Verif Verif.Spec

/-- C12: what is written and that it is read back. -/
theorem C12_flags_roundtrip (e : Encoding) (b : Bool) :
    RoundTrip e (writeBool b) readBool 1 b ∧ RoundTrip e (writeOption b) readOption 1 b ∧
    RoundTrip e (writeCOption b) readCOption 4 b ∧
    (∀ s, NoFail s → Emits (writeBool b) s [if b then 1 else 0]) ∧
    (∀ s, NoFail s → Emits (writeOption b) s [if b then 1 else 0]) ∧
    (∀ s, NoFail s → Emits (writeCOption b) s [if b then 1 else 0, 0, 0, 0]) := by
  have r1 := readBool_reads e (if b then 1 else 0)
  have r2 := readOption_reads e (if b then 1 else 0)
  have hb : ((if b then (1 : UInt8) else 0) != 0) = b := by cases b <;> rfl
  rw [hb] at r1 r2
  refine ⟨roundTrip_mk (writeBool_writes e b) r1 rfl, roundTrip_mk (writeOption_writes e b) r2 rfl,
    roundTrip_mk (writeCOption_writes e b) (readCOption_reads e b) (by simp),
    fun s hs => (writeBool_writes _ b).emits s rfl hs, fun s hs => (writeOption_writes _ b).emits s rfl hs, fun s hs => ?_⟩
  have := (writeCOption_writes _ b).emits s rfl hs
  cases b <;> exact this

/-- C12: ReadBool and ReadOption accept any byte, non-zero means true. -/
theorem C12_flags_lenient (e : Encoding) (x : UInt8) :
    Consumes e readBool [x] (decide (x ≠ 0)) ∧ Consumes e readOption [x] (decide (x ≠ 0)) := by
  have hb : (x != 0) = decide (x ≠ 0) := by
    by_cases h : x = 0 <;> simp [h]
  rw [← hb]
  exact ⟨(readBool_reads e x).consumes, (readOption_reads e x).consumes⟩

/-- C12: ReadCOption accepts exactly the 32-bit little-endian words 0 and 1. -/
theorem C12_coption_strict (e : Encoding) (cur : Option Order) (b0 b1 b2 b3 : UInt8) (pre post : Bytes) :
    (∃ v d', readCOption (decAt e cur pre ([b0, b1, b2, b3] ++ post)) = (.ok v, d')) ↔
      b1 = 0 ∧ b2 = 0 ∧ b3 = 0 ∧ (b0 = 0 ∨ b0 = 1) := by
  have hv : ∀ w, w = [b0, b1, b2, b3] → Reads e (readUint32 .le) w (getLE w) := by
    intro w hw
    have h4 : w.length = 4 := by rw [hw]; rfl
    have h := readUint32_reads e .le (getLE w) (by have := getLE_lt w; rw [h4] at this; omega)
    have hp : putUint .le 4 (getLE w) = w := by
      have := putLE_getLE w; rw [h4] at this; exact this
    rwa [hp] at h
  have hr := hv [b0, b1, b2, b3] rfl
  have hread := hr (decAt e cur pre ([b0, b1, b2, b3] ++ post)) post rfl (decAt_ok _ _ _ _) (by simp)
  unfold readCOption
  rw [M.bind_ok hread]
  have hsum : getLE [b0, b1, b2, b3] = b0.toNat + 256 * (b1.toNat + 256 * (b2.toNat + 256 * (b3.toNat + 256 * 0))) := rfl
  have z : ∀ b : UInt8, b = 0 ↔ b.toNat = 0 := u8_eq_zero_iff
  have o : ∀ b : UInt8, b = 1 ↔ b.toNat = 1 := fun b => by rw [← UInt8.toNat_inj]; rfl
  rw [z b1, z b2, z b3, z b0, o b0]
  by_cases hc : getLE [b0, b1, b2, b3] > 1
  · rw [if_pos hc]; simp; omega
  · rw [if_neg hc]; simp; omega

example : (readCOption (decAt .borsh none [] [2, 0, 0, 0])).1 = .err .coption := by decide

/-- NaN: exponent all ones, mantissa not zero. -/
def NaN32 (n : Nat) : Prop := n / 2 ^ 23 % 2 ^ 8 = 255 ∧ n % 2 ^ 23 ≠ 0
def NaN64 (n : Nat) : Prop := n / 2 ^ 52 % 2 ^ 11 = 2047 ∧ n % 2 ^ 52 ≠ 0

theorem isNaN32_iff (n : Nat) : isNaN32 n = true ↔ NaN32 n := by simp [isNaN32, NaN32]
theorem isNaN64_iff (n : Nat) : isNaN64 n = true ↔ NaN64 n := by simp [isNaN64, NaN64]

/-- C13: bit patterns survive (every encoding; NaN only outside Borsh). -/
theorem C13_float_roundtrip (e : Encoding) (o : Order) (n : Nat) :
    (n < 2 ^ 32 → (e = .borsh → ¬ NaN32 n) → RoundTrip e (writeFloat32 n o) (readFloat32 o) 4 n) ∧
    (n < 2 ^ 64 → (e = .borsh → ¬ NaN64 n) → RoundTrip e (writeFloat64 n o) (readFloat64 o) 8 n) := by
  refine ⟨fun h hn => ?_, fun h hn => ?_⟩
  · have hn' : ¬ (e = .borsh ∧ isNaN32 n = true) := fun ⟨h1, h2⟩ => hn h1 ((isNaN32_iff n).1 h2)
    exact roundTrip_mk (writeFloat32_writes e n o hn') (readFloat32_reads e o n h hn') (by simp)
  · have hn' : ¬ (e = .borsh ∧ isNaN64 n = true) := fun ⟨h1, h2⟩ => hn h1 ((isNaN64_iff n).1 h2)
    exact roundTrip_mk (writeFloat64_writes e n o hn') (readFloat64_reads e o n h hn') (by simp)

/-- C13: Borsh refuses NaN on both sides; the writer has written nothing. -/
theorem C13_float_nan_refused (o : Order) (n : Nat) (s : Enc) (hs : s.enc = .borsh) (cur : Option Order) (pre post : Bytes) :
    (NaN32 n → writeFloat32 n o s = (.err .nan, s)) ∧
    (NaN64 n → writeFloat64 n o s = (.err .nan, s)) ∧
    (NaN32 n → n < 2 ^ 32 → (readFloat32 o (decAt .borsh cur pre (fixed o 4 n ++ post))).1 = .err .nan) ∧
    (NaN64 n → n < 2 ^ 64 → (readFloat64 o (decAt .borsh cur pre (fixed o 8 n ++ post))).1 = .err .nan) := by
  refine ⟨fun h => ?_, fun h => ?_, fun h hlt => ?_, fun h hlt => ?_⟩
  · unfold writeFloat32; rw [M.bind_apply]; simp [hs, (isNaN32_iff n).2 h]
  · unfold writeFloat64; rw [M.bind_apply]; simp [hs, (isNaN64_iff n).2 h]
  · rw [fixed_eq, readFloat32_eq (decAt_ok _ _ _ _), decAt_rest, if_neg (by simp), getUint_putUint _ _ _ _ (by omega)]
    simp [decAt, (isNaN32_iff n).2 h]
  · rw [fixed_eq, readFloat64_eq (decAt_ok _ _ _ _), decAt_rest, if_neg (by simp), getUint_putUint _ _ _ _ (by omega)]
    simp [decAt, (isNaN64_iff n).2 h]

example : NaN32 0x7fc00001 ∧ ¬ NaN32 0x7f800000 ∧ NaN64 0x7ff8000000000001 := by unfold NaN32 NaN64; decide

/-- C14: length-prefixed bytes and strings, with the limit of each encoding. -/
theorem C14_bytes_roundtrip (e : Encoding) (he : e = .bin ∨ e = .borsh ∨ e = .compactU16) (b : Bytes)
    (hb : b.length < 2 ^ 31) (hc : e = .compactU16 → b.length ≤ 65535) :
    ∃ n, RoundTrip e (writeBytes b true) readByteSlice n b ∧ RoundTrip e (writeString b) readString n b ∧
      (e = .borsh → n = b.length + 4) ∧ b.length < n := by
  have hv : e.valid = true := by rcases he with rfl | rfl | rfl <;> rfl
  have hw : b.length ≤ lenMaxW e := by
    rcases he with rfl | rfl | rfl
    · simp only [lenMaxW]; omega
    · simp only [lenMaxW]; omega
    · exact hc rfl
  have hr : b.length ≤ lenMax e := by
    rcases he with rfl | rfl | rfl
    · simp only [lenMax]; omega
    · simp only [lenMax]; omega
    · exact hc rfl
  have hpos : 0 < (lenBytes e b.length).length := by
    rcases he with rfl | rfl | rfl
    · obtain ⟨⟨i, l, h, -⟩, -⟩ := uvarintBytes_groups b.length (by omega)
      simp [lenBytes, h]
    · simp [lenBytes]
    · simp only [lenBytes, Spec.compact_length]; repeat' split
      all_goals decide
  refine ⟨(lenBytes e b.length ++ b).length,
    roundTrip_mk (writeBytes_writes e hv b hw) (readByteSlice_reads e hv b hr) rfl,
    roundTrip_mk (writeBytes_writes e hv b hw) (readByteSlice_reads e hv b hr) rfl, ?_, ?_⟩
  · rintro rfl; simp [lenBytes]; omega
  · simp; omega

example : RoundTrip .compactU16 (writeString [104, 105]) readString 3 [104, 105] := by
  obtain ⟨n, -, h, -, -⟩ := C14_bytes_roundtrip .compactU16 (by simp) [104, 105] (by decide) (by decide)
  obtain ⟨bs, hn, hw, hc⟩ := h
  have : bs = [2, 104, 105] := by
    obtain ⟨s', h1, h2, -⟩ := hw (Enc.new .compactU16) rfl (fun _ _ => rfl)
    have h3 : writeString [104, 105] (Enc.new .compactU16) = (.ok (), (Enc.new .compactU16).push [[2], [104, 105]]) := rfl
    rw [h3] at h1
    injection h1 with _ h1
    subst h1
    simpa [Enc.new, Enc.push] using h2.symm
  subst this
  exact ⟨_, rfl, hw, hc⟩

/-- C15 is false of the code for CompactU16: a string of 65536 zero bytes is written with no length prefix at all and
without an error (encoder.go:140 drops the error), and reads back as the empty string. -/
theorem C15_violated_compact :
    ∃ b : Bytes, b.length = 65536 ∧
      (∀ s : Enc, s.enc = .compactU16 → NoFail s → Emits (writeString b) s b) ∧
      (readString (decAt .compactU16 none [] b)).1 = .ok [] := by
  refine ⟨List.replicate 65536 0, List.length_replicate, fun s hs hf => ?_, ?_⟩
  · unfold writeString writeBytes
    rw [if_pos rfl]
    have hw : Writes .compactU16 (writeLength ((List.replicate 65536 (0 : UInt8)).length : Int)) [] := by
      intro s hs hf
      refine ⟨[], rfl, ?_⟩
      unfold writeLength
      rw [M.bind_apply]
      simp only [M.get_apply, hs, List.length_replicate]
      rw [encodeCompactU16Length_eq, if_neg (by omega), Enc.push_nil]
      rfl
    exact (hw.seq (writeRaw_writes _ _)).emits s hs hf
  · have h1 : List.replicate 65536 (0 : UInt8) = Spec.compact 0 ++ List.replicate 65535 0 := by
      rw [List.replicate_succ]; rfl
    rw [h1]
    have := (readByteSlice_reads .compactU16 rfl [] (by decide)).consumes none [] (List.replicate 65535 0)
    unfold readString
    simp only [List.length_nil, lenBytes, List.append_nil] at this
    rw [this]

/-- C15 is false for Borsh too: a length of 2^32 + k is written as the prefix `k`. -/
theorem C15_violated_borsh (s : Enc) (hs : s.enc = .borsh) (hf : NoFail s) (k : Nat) (hk : k < 2 ^ 32) :
    Emits (writeLength (2 ^ 32 + k)) s (fixed .le 4 k) := by
  rw [fixed_eq]
  have : writeLength (2 ^ 32 + k) s = writeUint32 k .le s := by
    unfold writeLength
    rw [M.bind_apply]
    simp only [M.get_apply, hs]
    have : toUnsigned 32 (2 ^ 32 + (k : Int)) = k := by unfold toUnsigned; omega
    rw [this]
  obtain ⟨s', h1, h2⟩ := (writeUint32_writes s.enc k .le).emits s rfl hf
  exact ⟨s', by rw [this, h1], h2⟩

/-- C15, the part that holds: in Bin a length that readers refuse (2^31 and more) is refused when reading, never
misread. Missing: the writer reports nothing, and CompactU16 / Borsh emit misleading streams (above). -/
theorem C15_overlong_partial (n : Nat) (h0 : 2 ^ 31 ≤ n) (h1 : n < 2 ^ 56) (cur : Option Order) (pre post : Bytes) :
    ∃ bs, (∀ s : Enc, s.enc = .bin → NoFail s → Emits (writeLength n) s bs) ∧
      (readByteSlice (decAt .bin cur pre (bs ++ post))).1 = .err .eof ∧
      (readString (decAt .bin cur pre (bs ++ post))).1 = .err .eof := by
  obtain ⟨hg, hl, h10⟩ := uvarintBytes_groups n (by omega)
  have hr := readUvarint64_reads .bin _ hg h10 (by omega)
  have key : (readByteSlice (decAt .bin cur pre (lenBytes .bin n ++ post))).1 = .err .eof := by
    have h2 := hr (decAt .bin cur pre (lenBytes .bin n ++ post)) post rfl (decAt_ok _ _ _ _) (by simp [lenBytes])
    have h3 : readLength (decAt .bin cur pre (lenBytes .bin n ++ post)) =
        (.err .eof, (decAt .bin cur pre (lenBytes .bin n ++ post)).adv (uvarintBytes 10 n).length) := by
      rw [readLength_enc]
      simp only [show (decAt .bin cur pre (lenBytes .bin n ++ post)).enc = .bin from rfl]
      rw [M.bind_ok h2, hl, if_pos (by omega)]; rfl
    rw [readByteSlice_def, M.bind_err h3]
  exact ⟨lenBytes .bin n, (writeLength_writes .bin rfl n (by simp only [lenMaxW]; omega)).emits, key, key⟩

/-- C16: Rust strings round trip with an 8-byte little-endian length. -/
theorem C16_rust_string (e : Encoding) (s : Bytes) (h : s.length < 2 ^ 31) :
    RoundTrip e (writeRustString s) readRustString (8 + s.length) s ∧
    (∀ w : Enc, NoFail w → Emits (writeRustString s) w (fixed .le 8 s.length ++ s)) :=
  ⟨roundTrip_mk (writeRustString_writes e s (by omega)) (readRustString_reads e s (by omega)) (by simp),
   fun w hw => by rw [fixed_eq]; exact (writeRustString_writes _ s (by omega)).emits w rfl hw⟩

/-- C16: a declared length larger than what is left is an error. -/
theorem C16_rust_string_overlong (e : Encoding) (he : e.valid = true) (cur : Option Order) (n : Nat) (hn : n < 2 ^ 64) (pre post : Bytes)
    (h : post.length < n) : ∃ x, (readRustString (decAt e cur pre (fixed .le 8 n ++ post))).1 = .err x := by
  rw [fixed_eq]
  have h1 := readUint64_reads e .le n hn (decAt e cur pre (putUint .le 8 n ++ post)) post rfl (decAt_ok _ _ _ _) (by simp)
  unfold readRustString
  rw [M.bind_ok h1]
  by_cases hb : n > 0x7FFFFFFF
  · rw [if_pos hb]; exact ⟨.eof, rfl⟩
  · rw [if_neg hb, decAt_adv, readNBytes_eq (decAt_ok _ _ _ _), if_neg (by omega), if_neg (by omega), decAt_rest,
      if_pos (by omega)]
    exact ⟨.notEnough, rfl⟩

example : (readRustString (decAt .bin none [] [2, 0, 0, 0, 0, 0, 0, 0, 104, 105, 9])) =
    (.ok [104, 105], decAt .bin none [2, 0, 0, 0, 0, 0, 0, 0, 104, 105] [9]) := by decide

end Verif.Props
