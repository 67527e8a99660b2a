import Verif.Proofs.Messages
/-!
# C108: an error that says how many bytes are missing is right
-/
namespace Verif.Props
open Spec

/-- The reads with numbers in their messages are the reads of `Model/Decoder`: same results, same classes of errors, same cursor. -/
theorem C108_same_reads (o : Order) (n : Int) (k : Nat) :
    Numbered readByteNum readByte ∧ Numbered readUint8Num readUint8 ∧ Numbered readInt8Num readInt8 ∧
    Numbered (readUint16Num o) (readUint16 o) ∧ Numbered (readInt16Num o) (readInt16 o) ∧
    Numbered (readUint32Num o) (readUint32 o) ∧ Numbered (readInt32Num o) (readInt32 o) ∧
    Numbered (readUint64Num o) (readUint64 o) ∧ Numbered (readInt64Num o) (readInt64 o) ∧
    Numbered (readUint128Num o) (readUint128 o) ∧ Numbered (readInt128Num o) (readInt128 o) ∧ Numbered (readFloat128Num o) (readFloat128 o) ∧
    Numbered (readFloat32Num o) (readFloat32 o) ∧ Numbered (readFloat64Num o) (readFloat64 o) ∧
    Numbered (readNBytesNum n) (readNBytes n) ∧ Numbered readLengthNum readLength ∧ Numbered readByteSliceNum readByteSlice ∧
    Numbered readStringNum readString ∧ Numbered safeReadUTF8StringNum safeReadUTF8String ∧ Numbered readRustStringNum readRustString ∧
    Numbered readTypeIDNum readTypeID ∧ Numbered readOptionNum readOption ∧ Numbered readCOptionNum readCOption ∧ Numbered readBoolNum readBool ∧
    Numbered (skipBytesNum k) (skipBytes k) ∧ Numbered (discardNum n) (discard n) ∧ Numbered (peekNum n) (peek n) ∧
    Numbered peekDiscriminatorNum peekDiscriminator := by
  have hv : False → Encoding.bin.valid = true := fun h => h.elim
  have hskip : ∀ k, Numbered (skipBytesNum k) (skipBytes k) := fun k =>
    Spec.Numbered.get.bind fun _ => Spec.Numbered.ite (Spec.Numbered.say _) (Spec.Numbered.of _)
  have hpeek : ∀ n, Numbered (peekNum n) (peek n) := fun n =>
    Spec.Numbered.ite (Spec.Numbered.say _) (Spec.Numbered.get.bind fun _ => Spec.Numbered.ite (Spec.Numbered.say _) (Spec.Numbered.of _))
  exact ⟨(readByteNum_says hv).1, (readUint8Num_says hv).1, (readInt8Num_says hv).1, (readUint16Num_says hv o).1, (readInt16Num_says hv o).1,
    (readUint32Num_says hv o).1, (readInt32Num_says hv o).1, (readUint64Num_says hv o).1, (readInt64Num_says hv o).1, (readUint128Num_says hv o).1,
    (readInt128Num_says hv o).1, (readFloat128Num_says hv o).1, (readFloat32Num_says hv o).1, (readFloat64Num_says hv o).1, (readNBytesNum_says hv n).1,
    (readLengthNum_says hv).1, (readByteSliceNum_says hv).1, (readStringNum_says hv).1, (safeReadUTF8StringNum_says hv).1, (readRustStringNum_says hv).1,
    (readTypeIDNum_says hv).1, (readOptionNum_says hv).1, (readCOptionNum_says hv).1, (readBoolNum_says hv).1,
    hskip k, Spec.Numbered.ite (Spec.Numbered.pure _) (Spec.Numbered.ite (Spec.Numbered.say _) (hskip _)), hpeek n,
    (hpeek 8).bind fun _ => Spec.Numbered.pure _⟩

/-- `Decode` with numbers in its messages is `decode`. -/
theorem C108_same_decode (t : Ty) (old : Val) : Numbered (decodeNum t old) (decode t old) := decodeNum_numbered t old

/-- C108 for the reads that move the cursor. -/
theorem C108_reads (e : Encoding) (he : e.valid = true) (o : Order) (n : Int) :
    Tells e readByteNum ∧ Tells e readUint8Num ∧ Tells e readInt8Num ∧ Tells e (readUint16Num o) ∧ Tells e (readInt16Num o) ∧
    Tells e (readUint32Num o) ∧ Tells e (readInt32Num o) ∧ Tells e (readUint64Num o) ∧ Tells e (readInt64Num o) ∧
    Tells e (readUint128Num o) ∧ Tells e (readInt128Num o) ∧ Tells e (readFloat128Num o) ∧ Tells e (readFloat32Num o) ∧ Tells e (readFloat64Num o) ∧
    Tells e (readNBytesNum n) ∧ Tells e readLengthNum ∧ Tells e readByteSliceNum ∧ Tells e readStringNum ∧ Tells e safeReadUTF8StringNum ∧
    Tells e readRustStringNum ∧ Tells e readTypeIDNum ∧ Tells e readOptionNum ∧ Tells e readCOptionNum ∧ Tells e readBoolNum := by
  have hv : True → e.valid = true := fun _ => he
  exact ⟨(readByteNum_says hv).2 ⟨⟩, (readUint8Num_says hv).2 ⟨⟩, (readInt8Num_says hv).2 ⟨⟩, (readUint16Num_says hv o).2 ⟨⟩,
    (readInt16Num_says hv o).2 ⟨⟩, (readUint32Num_says hv o).2 ⟨⟩, (readInt32Num_says hv o).2 ⟨⟩, (readUint64Num_says hv o).2 ⟨⟩,
    (readInt64Num_says hv o).2 ⟨⟩, (readUint128Num_says hv o).2 ⟨⟩, (readInt128Num_says hv o).2 ⟨⟩, (readFloat128Num_says hv o).2 ⟨⟩,
    (readFloat32Num_says hv o).2 ⟨⟩, (readFloat64Num_says hv o).2 ⟨⟩, (readNBytesNum_says hv n).2 ⟨⟩, (readLengthNum_says hv).2 ⟨⟩,
    (readByteSliceNum_says hv).2 ⟨⟩, (readStringNum_says hv).2 ⟨⟩, (safeReadUTF8StringNum_says hv).2 ⟨⟩, (readRustStringNum_says hv).2 ⟨⟩,
    (readTypeIDNum_says hv).2 ⟨⟩, (readOptionNum_says hv).2 ⟨⟩, (readCOptionNum_says hv).2 ⟨⟩, (readBoolNum_says hv).2 ⟨⟩⟩

/-- C108 for any program made of such calls, each depending on what the earlier ones returned (an `UnmarshalWithDecoder` of the caller, say). -/
theorem C108_program {α β : Type} (e : Encoding) (a : α) (m : TM α) (f : α → TM β) :
    Tells e (pure a : TM α) ∧ (Tells e m → (∀ a, Tells e (f a)) → Tells e (m >>= f)) ∧ (Tells e m → Tells e m.wrap) :=
  ⟨Spec.Tells.pure a, fun h1 h2 => h1.bind h2, fun h => h.wrap⟩

/-- C108 for `Decode`, for every type without `binary_extension` fields. -/
theorem C108_decode (e : Encoding) (he : e.valid = true) (t : Ty) (ht : noExtension t = true) (old : Val) : Tells e (decodeNum t old) :=
  decodeNum_tells (P := True) (fun _ => he) ⟨⟩ t ht old

/-- The reads of a fixed size, in the words of their messages: the size, and the number of bytes that are left. -/
theorem C108_words (d : Dec) (o : Order) :
    (left d < 1 → readByteNum d = (.err (.required 1 (left d)), d) ∧ readBoolNum d = (.err (.required 1 (left d)), d)) ∧
    (left d < 2 → readUint16Num o d = (.err (.required 2 (left d)), d)) ∧
    (left d < 4 → readUint32Num o d = (.err (.required 4 (left d)), d) ∧ readFloat32Num o d = (.err (.required 4 (left d)), d)) ∧
    (left d < 8 → readUint64Num o d = (.err (.required 8 (left d)), d) ∧ readFloat64Num o d = (.err (.required 8 (left d)), d)) ∧
    (left d < 16 → readUint128Num o d = (.err (.required 16 (left d)), d) ∧
      readFloat128Num o d = (.err (.within (.required 16 (left d))), d)) := by
  have key : ∀ {α : Type} (n : Int) (body : Dec → TM α), left d < n →
      (TM.get >>= fun d => if d.remaining < n then TM.say (.required n d.remaining) else body d) d = (.err (.required n (left d)), d) := by
    intro α n body h
    rw [TM.bind_ok (show TM.get d = (.ok d, d) from rfl), if_pos (show d.remaining < n from h)]
    rfl
  refine ⟨fun h => ⟨key 1 _ h, key 1 _ h⟩, key 2 _, fun h => ⟨key 4 _ h, key 4 _ h⟩, fun h => ⟨key 8 _ h, key 8 _ h⟩, fun h => ⟨key 16 _ h, ?_⟩⟩
  unfold readFloat128Num TM.wrap
  have : readUint128Num o d = (.err (.required 16 (left d)), d) := key 16 _ h
  rw [this]

/-- `ReadNBytes` and `ReadByteSlice`, in the words of their messages. -/
theorem C108_words_bytes (d : Dec) (n : Int) (h0 : 0 < n) (h1 : n ≤ 0x7FFFFFFF) (h : left d < n) :
    readNBytesNum n d = (.err (.missing (n - left d)), d) ∧
    ∀ d0 : Dec, readLengthNum d0 = (.ok n.toNat, d) → readByteSliceNum d0 = (.err (.varlen n.toNat (n - left d)), d) := by
  simp only [left] at h ⊢
  refine ⟨?_, fun d0 hd => ?_⟩
  · unfold readNBytesNum
    rw [if_neg (by omega), if_neg (by omega), TM.bind_ok (show TM.get d = (.ok d, d) from rfl), if_pos (by omega)]
    simp only [TM.say, Prod.mk.injEq, TRes.err.injEq, Msg.missing.injEq, and_true]
    omega
  · unfold readByteSliceNum
    rw [TM.bind_ok hd]
    unfold sliceBodyNum
    rw [TM.bind_ok (show TM.get d = (.ok d, d) from rfl), if_pos (by omega)]
    simp only [TM.say, Prod.mk.injEq, TRes.err.injEq, Msg.varlen.injEq, and_true, true_and]
    omega

/-- C108 for `Peek`, which does not move the cursor: with too few bytes it says how many are left, with enough it succeeds. -/
theorem C108_peek (d : Dec) (hi : Inside d) (n : Int) (hn : 0 ≤ n) :
    (left d < n → peekNum n d = (.err (.required n (left d)), d)) ∧ (n ≤ left d → ∃ b, peekNum n d = (.ok b, d)) := by
  refine ⟨fun h => ?_, fun h => ?_⟩
  · unfold peekNum
    rw [if_neg (by omega), TM.bind_ok (show TM.get d = (.ok d, d) from rfl), if_pos (show d.remaining < n from h)]
    rfl
  · have hl := Dec.rest_length hi
    simp only [Dec.remaining] at hl
    simp only [left] at h
    have hr := peek_eq hi n
    rw [if_neg (by omega), if_neg (by omega)] at hr
    have hsame := (C108_same_reads .le n 0).2.2.2.2.2.2.2.2.2.2.2.2.2.2.2.2.2.2.2.2.2.2.2.2.2.2.1
    exact ⟨_, hsame.ok hr⟩

/-- C108 for `SkipBytes` and `Discard` (the buffer is shorter than 2^63 bytes, as every buffer is): with too few bytes they say how many there are, with
enough they skip them. -/
theorem C108_skip (d : Dec) (hi : Inside d) (hd : d.data.length < 2 ^ 63) (n : Nat) :
    (left d < n → skipBytesNum n d = (.err (.skip n (left d)), d)) ∧
    ((n : Int) ≤ left d → skipBytesNum n d = (.ok (), { d with pos := d.pos + n })) ∧
    (0 < n → n ≤ 0x7FFFFFFF → discardNum n d = skipBytesNum n d) := by
  have hl := Dec.rest_length hi
  simp only [Dec.remaining] at hl
  refine ⟨fun h => ?_, fun h => ?_, fun h1 h2 => ?_⟩
  · unfold skipBytesNum
    have : toUnsigned 64 d.remaining = d.rest.length := by
      rw [show d.remaining = (d.rest.length : Int) by simp only [Dec.remaining]; omega]
      have : d.rest.length ≤ d.data.length := by simp [Dec.rest]
      exact toUnsigned_natCast (by omega)
    simp only [left] at h
    rw [TM.bind_ok (show TM.get d = (.ok d, d) from rfl), if_pos (by rw [this]; omega)]
    rfl
  · simp only [left] at h
    have hr := skipBytes_eq hi hd n
    rw [if_neg (by omega)] at hr
    have hsame := (C108_same_reads .le 0 n).2.2.2.2.2.2.2.2.2.2.2.2.2.2.2.2.2.2.2.2.2.2.2.2.1
    exact hsame.ok hr
  · unfold discardNum
    rw [if_neg (by omega), if_neg (by omega)]
    rfl

/-- A struct in Borsh, and what its error says as more bytes come. -/
example :
    let t : Ty := .struct (.cons { name := [65] } (.uint .w8 false) (.cons { name := [66] } (.uint .w32 false) (.cons { name := [67] } .str .nil)))
    noExtension t = true ∧
    (decodeNum t t.zero (Dec.new [7, 1] .borsh)).1 = .err (.within (.required 4 1)) ∧
    (decodeNum t t.zero (Dec.new [7, 1, 0, 0] .borsh)).1 = .err (.within (.required 4 3)) ∧
    (decodeNum t t.zero (Dec.new [7, 1, 0, 0, 0] .borsh)).1 = .err (.within (.required 4 0)) ∧
    (decodeNum t t.zero (Dec.new [7, 1, 0, 0, 0, 3, 0, 0, 0, 97] .borsh)).1 = .err (.within (.varlen 3 2)) ∧
    (decodeNum t t.zero (Dec.new [7, 1, 0, 0, 0, 3, 0, 0, 0, 97, 98, 99] .borsh)).1 = .ok (.struct [.uint 7, .uint 1, .str [97, 98, 99]]) :=
  ⟨rfl, rfl, rfl, rfl, rfl, rfl⟩

/-- The number of bytes a message is about need not be all that is missing: there may be more to read behind it. -/
example : (decodeNum (.array 2 .f32) (Ty.array 2 .f32).zero (Dec.new [0, 0] .bin)).1 = .err (.required 4 2) ∧
    (decodeNum (.array 2 .f32) (Ty.array 2 .f32).zero (Dec.new [0, 0, 0, 0] .bin)).1 = .err (.required 4 0) := ⟨rfl, rfl⟩

/-- The condition on `binary_extension` is needed: a byte that was to fill the field at the end can land in an extension field before it, and the same number
of bytes is missing still. -/
example :
    let t : Ty := .slice (.struct (.cons { name := [65] } (.uint .w16 false) (.cons { name := [66], tag := { binExt := true } } (.uint .w8 false) .nil)))
    (decodeNum t t.zero (Dec.new [2, 1, 0] .bin)).1 = .err (.within (.required 2 0)) ∧
    (decodeNum t t.zero (Dec.new [2, 1, 0, 9] .bin)).1 = .err (.within (.required 2 0)) := ⟨rfl, rfl⟩

/-- The condition on the cursor is needed: `SetPosition` can leave it before the buffer, and the message counts from there. -/
example : readUint32Num .le ⟨[1], -1, none, .bin⟩ = (.err (.required 4 2), ⟨[1], -1, none, .bin⟩) ∧
    (readUint32Num .le ⟨[1, 2, 3], -1, none, .bin⟩).1 = .panic := by decide +kernel

example : readRustStringNum (Dec.new [5, 0, 0, 0, 0, 0, 0, 0, 97] .bin) = (.err (.missing 4), ⟨[5, 0, 0, 0, 0, 0, 0, 0, 97], 8, none, .bin⟩) ∧
    (skipBytesNum 5 (Dec.new [1, 2] .bin)).1 = .err (.skip 5 2) ∧ (peekNum 3 (Dec.new [1, 2] .bin)).1 = .err (.required 3 2) ∧
    (readCOptionNum (Dec.new [1, 2] .borsh)).1 = .err (.within (.required 4 2)) := by decide +kernel

end Verif.Props
