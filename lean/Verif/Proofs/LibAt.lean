import Verif.Proofs.Utf8
import Verif.Proofs.DecodeWire
import Verif.Proofs.Bridge
import Verif.Spec.Libs
/-! `MarshalWithEncoder` and `UnmarshalWithDecoder` of the library types called with any current field option. -/
set_option linter.unusedSimpArgs false
namespace Verif
open Spec

theorem order128_getD (cur en : Option Order) : order128 cur en = cur.getD (en.getD .le) := by cases cur <;> rfl

/-- The encoding of a library value is handed to the writer. -/
theorem marshalLib_at {e : Encoding} (hv : e.valid = true) (l : Lib) (o : Order) (v : Val) (h : LibEnc e l v)
    (s : Enc) (he : s.enc = e) (hf : NoFail s) (ho : LibOrder l s.cur v.endianness o) :
    Emits (marshalLib l v) s (libWire e l o v) := by
  have hstr : ∀ b : Bytes, b.length ≤ maxLen e → Emits (writeBytes b true) s (lenPrefix e b.length ++ b) := by
    intro b hb
    rw [lenPrefix_eq e _ (fun he => by subst he; simp only [maxLen] at hb; omega)]
    exact (writeBytes_writes e hv b (by rw [← maxLen_eq]; exact hb)).emits s he hf
  have hget : ∀ (f : Enc → EM Unit) (bs : Bytes), Emits (f s) s bs → Emits (M.get >>= f) s bs := by
    intro f bs ⟨s', h1, h2⟩
    exact ⟨s', by rw [M.bind_ok (M.get_apply s)]; exact h1, h2⟩
  cases l <;> cases v <;> try (exact h.elim)
  case safeString.str s => exact hstr s h
  case bool.bool b => exact (writeBool_writes e b).emits s he hf
  case hexBytes.bytes b => exact hstr (b.getD []) h
  case varint16.int z =>
    have hz : -2 ^ 15 ≤ z ∧ z < 2 ^ 15 := h
    have e1 := zig_eq z (by omega) (by omega)
    have hb : zig z < 2 ^ 56 := by unfold zig; split <;> omega
    simp only [libWire]
    rw [varint_eq _ (by omega), e1]
    exact (writeVarInt_writes e z (by omega)).emits s he hf
  case varint32.int z =>
    have hz : -2 ^ 31 ≤ z ∧ z < 2 ^ 31 := h
    have e1 := zig_eq z (by omega) (by omega)
    have hb : zig z < 2 ^ 56 := by unfold zig; split <;> omega
    simp only [libWire]
    rw [varint_eq _ (by omega), e1]
    exact (writeVarInt_writes e z (by omega)).emits s he hf
  case varuint16.uint n =>
    have hn : n < 2 ^ 16 := h
    simp only [libWire]
    rw [varint_eq _ (by omega)]
    exact (writeUVarInt_writes e n (by omega) (by omega)).emits s he hf
  case varuint32.uint n =>
    have hn : n < 2 ^ 32 := h
    simp only [libWire]
    rw [varint_eq _ (by omega)]
    exact (writeUVarInt_writes e n (by omega) (by omega)).emits s he hf
  case jsonFloat64.float n =>
    simp only [libWire, marshalLib, fixed_eq]
    refine hget _ _ ?_
    rw [show s.cur = some o from ho]
    exact (writeFloat64_writes e n o (fun hh => by have := h.2 hh.1; simp [this] at hh)).emits s he hf
  case int64.int z =>
    simp only [libWire, marshalLib, fixed_eq]
    refine hget _ _ ?_
    rw [show s.cur = some o from ho]
    exact (writeInt64_writes e z o).emits s he hf
  case uint64.uint n =>
    simp only [libWire, marshalLib, fixed_eq]
    refine hget _ _ ?_
    rw [show s.cur = some o from ho]
    exact (writeUint64_writes e n o).emits s he hf
  case uint128.u128 lo hi en =>
    simp only [libWire, marshalLib]
    rw [fixed128_eq o lo hi h.1]
    refine hget _ _ ?_
    rw [order128_getD, show s.cur.getD (en.getD .le) = o from ho]
    exact (writeUint128_writes e lo hi o).emits s he hf
  case int128.u128 lo hi en =>
    simp only [libWire, marshalLib]
    rw [fixed128_eq o lo hi h.1]
    refine hget _ _ ?_
    rw [order128_getD, show s.cur.getD (en.getD .le) = o from ho]
    exact (writeInt128_writes e lo hi o).emits s he hf
  case float128.u128 lo hi en =>
    simp only [libWire, marshalLib]
    rw [fixed128_eq o lo hi h.1]
    refine hget _ _ ?_
    rw [order128_getD, show s.cur.getD (en.getD .le) = o from ho]
    exact (writeUint128_writes e lo hi o).emits s he hf
  case emptyVariant.struct vs => exact Writes.pure.emits s he hf

/-- Reading from a decoder whose current field option is `cur`. -/
def ReadsAt {α : Type} (e : Encoding) (cur : Option Order) (r : DM α) (bs : Bytes) (a : α) : Prop :=
  ∀ (d : Dec) (tail : Bytes), d.enc = e → d.Ok → d.rest = bs ++ tail → d.cur = cur → r d = (.ok a, d.adv bs.length)

theorem Reads.curAt {α : Type} {e : Encoding} {r : DM α} {bs a} (h : Reads e r bs a) (cur : Option Order) : ReadsAt e cur r bs a :=
  fun d tail h1 h2 h3 _ => h d tail h1 h2 h3

theorem unmarshalLib_at {e : Encoding} (hv : e.valid = true) (l : Lib) (o : Order) (v old : Val) (h : LibEnc e l v)
    (hr : LibRet e l v) (cur : Option Order) (hc : LibOrder l cur old.endianness o) :
    ReadsAt e cur (unmarshalLib l old) (libWire e l o v) (match l with | .emptyVariant => old | _ => copyLib v) := by
  have hu : ∀ n, n < 2 ^ 64 → Reads e readUvarint64 (varint n) n := by
    intro n hn
    obtain ⟨h1, h2, h3⟩ := varint_leb n hn
    have := readUvarint64_reads e _ h1 h2 (by omega)
    rwa [h3] at this
  have hz : ∀ z : Int, -2 ^ 31 ≤ z → z < 2 ^ 31 → Reads e readVarint64 (varint (zig z)) z := by
    intro z hz0 hz1
    have hlt : zig z < 2 ^ 64 := by unfold zig; split <;> omega
    obtain ⟨h1, h2, h3⟩ := varint_leb (zig z) hlt
    have := readVarint64_reads e _ h1 h2 (by omega)
    rw [h3, zig_eq z (by omega) (by omega), unzigzag_zigzag (by omega) (by omega)] at this
    rwa [zig_eq z (by omega) (by omega)]
  have get : ∀ {f : Dec → DM Val} {bs a}, (∀ d0 : Dec, d0.cur = cur → Reads e (f d0) bs a) →
      ReadsAt e cur (M.get >>= f) bs a := by
    intro f bs a hf d tail he ho hr hc
    rw [M.bind_apply, M.get_apply]
    exact hf d hc d tail he ho hr
  cases l <;> cases v <;> simp only [LibEnc] at h <;> simp only [LibRet] at hr <;>
    simp only [unmarshalLib, libWire, copyLib, Lib.zero]
  case safeString.str s =>
    rw [lenPrefix_eq' e _ hr.1]
    have := ((readByteSlice_reads e hv s (Nat.le_trans hr.1 (readMax_eq e))).bind_pure (f := fixUtf8)).bind_pure
      (f := Val.str)
    rw [(fixUtf8_eq_self s).mpr hr.2] at this
    exact this.curAt _
  case bool.bool b =>
    have := (readBool_reads e (if b = true then 1 else 0)).bind_pure (f := Val.bool)
    cases b <;> exact this.curAt _
  case hexBytes.bytes b =>
    rw [lenPrefix_eq' e _ hr]
    exact ((readByteSlice_reads e hv _ (Nat.le_trans hr (readMax_eq e))).bind_pure
      (f := fun b => Val.bytes (some b))).curAt _
  case varint16.int z =>
    have := ((hz z (by omega) (by omega)).bind_pure (f := toSigned 16 ∘ toUnsigned 16)).bind_pure (f := Val.int)
    simp only [Function.comp] at this
    rw [toSigned_toUnsigned (by decide) (by omega) (by omega)] at this
    exact this.curAt _
  case varint32.int z =>
    have := ((hz z (by omega) (by omega)).bind_pure (f := toSigned 32 ∘ toUnsigned 32)).bind_pure (f := Val.int)
    simp only [Function.comp] at this
    rw [toSigned_toUnsigned (by decide) (by omega) (by omega)] at this
    exact this.curAt _
  case varuint16.uint n =>
    have := ((hu n (by omega)).bind_pure (f := fun n => n % 2 ^ 16)).bind_pure (f := Val.uint)
    rw [Nat.mod_eq_of_lt h] at this
    exact this.curAt _
  case varuint32.uint n =>
    have := (hu n (by omega)).bind_pure (f := fun n => Val.uint (n % 2 ^ 32))
    rw [Nat.mod_eq_of_lt h] at this
    exact this.curAt _
  case jsonFloat64.float n =>
    refine get fun d0 hd => ?_
    rw [hd, show cur = some o from hc, fixed_eq]
    refine ((readFloat64_reads e o n h.1 ?_).bind_pure (f := Val.float))
    rintro ⟨he, hn⟩
    rw [h.2 he] at hn; cases hn
  case int64.int z =>
    refine get fun d0 hd => ?_
    rw [hd, show cur = some o from hc, fixed_eq, twos_eq]
    exact ((readInt64_reads e o z h.1 h.2).bind_pure (f := Val.int))
  case uint64.uint n =>
    refine get fun d0 hd => ?_
    rw [hd, show cur = some o from hc, fixed_eq]
    exact ((readUint64_reads e o n h).bind_pure (f := Val.uint))
  case uint128.u128 lo hi x =>
    refine get fun d0 hd => ?_
    rw [order128_getD, hd, show cur.getD (old.endianness.getD .le) = o from hc, fixed128_eq o lo hi h.1]
    exact ((readUint128_reads e o lo hi h.1 h.2).bind_pure (f := fun r : Nat × Nat => Val.u128 r.1 r.2 none))
  case int128.u128 lo hi x =>
    refine get fun d0 hd => ?_
    rw [order128_getD, hd, show cur.getD (old.endianness.getD .le) = o from hc, fixed128_eq o lo hi h.1]
    exact ((readUint128_reads e o lo hi h.1 h.2).bind_pure (f := fun r : Nat × Nat => Val.u128 r.1 r.2 none))
  case float128.u128 lo hi x =>
    refine get fun d0 hd => ?_
    rw [order128_getD, hd, show cur.getD (old.endianness.getD .le) = o from hc, fixed128_eq o lo hi h.1]
    exact ((readUint128_reads e o lo hi h.1 h.2).bind_pure (f := fun r : Nat × Nat => Val.u128 r.1 r.2 none))
  case emptyVariant.struct vs => exact (Reads.pure _).curAt _

end Verif
