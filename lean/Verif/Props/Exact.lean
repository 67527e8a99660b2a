import Verif.Props.Varints
import Verif.Props.Scalars
import Verif.Props.Sessions
import Verif.Props.Libs
/-! C11, C15, C17, C18 and C58 are false of the code.  Here is what the code does instead, for every input in the region where
they fail: the narrow reads truncate, the overlong lengths lose their high bits or their whole prefix, and after a
`SetPosition` that wraps around the calls that look at the buffer panic. -/
namespace Verif.Props
open Verif Verif.Spec

/-! ### C11: truncation -/

/-- `y` is the number of `b` bits, in two's complement, that `z` has the low bits of. -/
def LowBits (b : Nat) (z y : Int) : Prop := -2 ^ (b - 1) ≤ y ∧ y < 2 ^ (b - 1) ∧ ∃ k : Int, z = y + k * 2 ^ b

theorem lowBits_signed {b : Nat} (hb : 0 < b) (z : Int) : LowBits b z (toSigned b (toUnsigned b z)) := by
  have h := toSigned_range hb (toUnsigned_lt b z)
  refine ⟨h.1, h.2, ?_⟩
  have hp : (0 : Int) < 2 ^ b := Int.pow_pos (by decide)
  have h1 := Int.emod_nonneg z (Int.ne_of_gt hp)
  have h2 := Int.mul_ediv_add_emod z (2 ^ b)
  unfold toSigned
  split
  · refine ⟨z / 2 ^ b, ?_⟩
    unfold toUnsigned
    rw [Int.mul_comm]; omega
  · refine ⟨z / 2 ^ b + 1, ?_⟩
    unfold toUnsigned
    rw [Int.add_mul, Int.mul_comm (z / 2 ^ b)]; omega

/-- C11, exactly: a narrow read succeeds when the 64-bit read does, stops at the same place, and returns the low bits of the
number: of 2^32+1 the number 1, of 40000 as an int16 the number -25536. -/
theorem C11_truncates (d d' : Dec) :
    (∀ n, readUvarint64 d = (.ok n, d') →
      readUvarint32 d = (.ok (n % 2 ^ 32), d') ∧ readUvarint16 d = (.ok (n % 2 ^ 16), d')) ∧
    (∀ z, readVarint64 d = (.ok z, d') →
      (∃ y, readVarint32 d = (.ok y, d') ∧ LowBits 32 z y) ∧ ∃ y, readVarint16 d = (.ok y, d') ∧ LowBits 16 z y) := by
  refine ⟨fun n h => ⟨?_, ?_⟩, fun z h => ⟨⟨_, ?_, lowBits_signed (by decide) z⟩, ⟨_, ?_, lowBits_signed (by decide) z⟩⟩⟩
  · exact ((C11_narrow_partial d).1 n d' h).1.1
  · exact ((C11_narrow_partial d).1 n d' h).2.1
  · unfold readVarint32; rw [M.bind_ok h]; rfl
  · unfold readVarint16; rw [M.bind_ok h]; rfl

example : LowBits 16 40000 (-25536) ∧ ¬ LowBits 16 40000 40000 :=
  ⟨⟨by decide, by decide, 1, by decide⟩, fun h => absurd h.2.1 (by decide)⟩

/-! ### C15: lengths the prefix cannot carry -/

theorem writeLength_compact_over (z : Int) (hz : z < 0 ∨ 65535 < z) : Writes .compactU16 (writeLength z) [] := by
  intro s hs hf
  refine ⟨[], rfl, ?_⟩
  unfold writeLength
  rw [M.bind_apply]
  simp only [M.get_apply, hs]
  rw [encodeCompactU16Length_eq, if_neg (by omega), Enc.push_nil]
  rfl

theorem writeLength_borsh (z : Int) : Writes .borsh (writeLength z) (fixed .le 4 (z % 2 ^ 32).toNat) := by
  intro s hs hf
  have : writeLength z s = writeUint32 (z % 2 ^ 32).toNat .le s := by
    unfold writeLength
    rw [M.bind_apply]
    simp only [M.get_apply, hs]
    rfl
  rw [this, fixed_eq]
  exact writeUint32_writes .borsh _ .le s hs hf

/-- C15, exactly, for `WriteLength`: CompactU16 writes nothing at all for lengths outside 0…65535, Borsh writes the length
modulo 2^32. -/
theorem C15_length (s : Enc) (hf : NoFail s) (z : Int) :
    (s.enc = .compactU16 → (z < 0 ∨ 65535 < z) → Emits (writeLength z) s []) ∧
    (s.enc = .borsh → Emits (writeLength z) s (fixed .le 4 (z % 2 ^ 32).toNat)) :=
  ⟨fun hs hz => (writeLength_compact_over z hz).emits s hs hf, fun hs => (writeLength_borsh z).emits s hs hf⟩

/-- C15, exactly, for strings and byte slices of any length.  In CompactU16 the prefix of a long one is missing.  In Borsh the
prefix counts the bytes modulo 2^32, so that what is read back is that many bytes of it (when the reader accepts the
count) and the rest is left unread. -/
theorem C15_bytes (b : Bytes) (s : Enc) (hf : NoFail s) :
    (s.enc = .compactU16 → 65535 < b.length → Emits (writeBytes b true) s b ∧ Emits (writeString b) s b) ∧
    (s.enc = .borsh →
      Emits (writeBytes b true) s (fixed .le 4 (b.length % 2 ^ 32) ++ b) ∧
      Emits (writeString b) s (fixed .le 4 (b.length % 2 ^ 32) ++ b)) ∧
    (b.length % 2 ^ 32 < 2 ^ 31 → ∀ cur pre post,
      readString (decAt .borsh cur pre (fixed .le 4 (b.length % 2 ^ 32) ++ b ++ post)) =
        (.ok (b.take (b.length % 2 ^ 32)),
          decAt .borsh cur (pre ++ fixed .le 4 (b.length % 2 ^ 32) ++ b.take (b.length % 2 ^ 32))
            (b.drop (b.length % 2 ^ 32) ++ post))) := by
  have hm : ((b.length : Int) % 2 ^ 32).toNat = b.length % 2 ^ 32 := by omega
  refine ⟨fun hs hb => ?_, fun hs => ?_, fun hk cur pre post => ?_⟩
  · have : Writes .compactU16 (writeBytes b true) b := by
      unfold writeBytes
      rw [if_pos rfl]
      exact (writeLength_compact_over _ (by omega)).seq (writeRaw_writes _ b)
    exact ⟨this.emits s hs hf, this.emits s hs hf⟩
  · have : Writes .borsh (writeBytes b true) (fixed .le 4 (b.length % 2 ^ 32) ++ b) := by
      unfold writeBytes
      rw [if_pos rfl, ← hm]
      exact (writeLength_borsh _).seq (writeRaw_writes _ b)
    exact ⟨this.emits s hs hf, this.emits s hs hf⟩
  · have hl : (b.take (b.length % 2 ^ 32)).length = b.length % 2 ^ 32 := by
      rw [List.length_take]; omega
    have := (readByteSlice_reads .borsh rfl (b.take (b.length % 2 ^ 32)) (by rw [hl]; simp only [lenMax]; omega)).consumes
      cur pre (b.drop (b.length % 2 ^ 32) ++ post)
    rw [hl] at this
    simp only [lenBytes, ← fixed_eq, List.append_assoc] at this
    unfold readString
    rw [← List.append_assoc (b.take _), List.take_append_drop] at this
    rw [List.append_assoc, this, List.append_assoc]

/-- A string of 2^32 + 2 bytes reads back as its first two bytes. -/
example : readString (decAt .borsh none [] ([2, 0, 0, 0] ++ [104, 105, 33, 33])) =
    (.ok [104, 105], decAt .borsh none [2, 0, 0, 0, 104, 105] [33, 33]) := by decide

theorem flatMap_same {α : Type} {xs : List α} {f g : α → Bytes} (h : ∀ x ∈ xs, f x = g x) : xs.flatMap f = xs.flatMap g := by
  induction xs with
  | nil => rfl
  | cons x xs ih => rw [List.flatMap_cons, List.flatMap_cons, h x (by simp), ih fun y hy => h y (by simp [hy])]

/-- The elements of a slice, as written. -/
theorem slice_body {e : Encoding} (he : e.valid = true) (t : Ty) (xs : List Val) (p : Bytes)
    (hp : EW e (writeSeqLen e xs.length) p)
    (hel : ∀ x ∈ xs, match t.uintKind with | some w => UintElem w x | none => Encodable e t none x) :
    marshal e (.slice t) (.seq (some xs)) =
      (.ok (), p ++ xs.flatMap fun x => match t.uintKind with | some w => uintWire w x | none => wire e t .le false x) := by
  have hne : ¬ e = .other := by intro h; rw [h] at he; cases he
  have hbody : EW e
      (match t.uintKind with
        | some w => writeUints xs.length w xs
        | none => forIndexM (fun x => do setCurE .le; encCore e t {} x) xs.length xs)
      (xs.flatMap fun x => match t.uintKind with | some w => uintWire w x | none => wire e t .le false x) := by
    cases hu : t.uintKind with
    | some w =>
      simp only [hu] at hel ⊢
      exact writeUints_w w _ _ rfl hel
    | none =>
      simp only [hu] at hel ⊢
      exact EW.forIndex _ fun x hx => EWat.set (by simpa using encCore_w he t {} x (hel x hx))
  have hcore : EW e (encCore e (.slice t) {} (.seq (some xs)))
      (p ++ xs.flatMap fun x => match t.uintKind with | some w => uintWire w x | none => wire e t .le false x) := by
    intro s hs hf
    obtain ⟨c1, k1, h1, w1⟩ := hp s hs hf
    obtain ⟨c2, k2, h2, w2⟩ := hbody (s.left c1 k1) hs (hf.left _ _)
    refine ⟨c1 ++ c2, k2, by rw [List.flatten_append, h1, h2], ?_⟩
    simp only [encCore, Option.getD_some]
    rw [M.bind_ok w1, M.bind_ok (M.pure_apply _ _), ← Enc.left_left]
    exact w2
  have hall : EW e (encode (.slice t) (.seq (some xs)))
      (p ++ xs.flatMap fun x => match t.uintKind with | some w => uintWire w x | none => wire e t .le false x) := by
    intro s hs hf
    have := EWat.set (hcore.at .le) s hs hf
    unfold encode
    rw [M.bind_ok (M.get_apply s), if_neg (by rw [hs]; exact hne), hs]
    exact this
  obtain ⟨cs, c, hb, hw⟩ := hall (Enc.new e) rfl (fun _ _ => rfl)
  unfold marshal
  rw [hw, ← hb]
  simp [Enc.left, Enc.push, Enc.new, Enc.out]

/-- C15, exactly, for slices of elements that are written one by one: an overlong slice in CompactU16 is the elements with no
prefix, in Borsh the prefix is the number of elements modulo 2^32.  `Marshal` reports nothing. -/
theorem C15_slice (t : Ty) (hu : t.uintKind = none) (xs : List Val) :
    (65535 < xs.length → (∀ x ∈ xs, Encodable .compactU16 t none x) →
      marshal .compactU16 (.slice t) (.seq (some xs)) = (.ok (), xs.flatMap fun x => (marshal .compactU16 t x).2)) ∧
    ((∀ x ∈ xs, Encodable .borsh t none x) →
      marshal .borsh (.slice t) (.seq (some xs)) =
        (.ok (), fixed .le 4 (xs.length % 2 ^ 32) ++ xs.flatMap fun x => (marshal .borsh t x).2)) := by
  have hm : ((xs.length : Int) % 2 ^ 32).toNat = xs.length % 2 ^ 32 := by omega
  constructor
  · intro hl hel
    have hp : EW .compactU16 (writeSeqLen .compactU16 xs.length) [] := by
      simp only [writeSeqLen, writeCompactU16, encodeCompactU16Length_eq]
      rw [if_neg (by omega)]
      exact (toWriter_writes .compactU16 []).ew
    rw [slice_body rfl t xs [] hp (by simpa only [hu] using hel)]
    simp only [hu, List.nil_append, Prod.mk.injEq, true_and]
    exact flatMap_same fun x hx => by rw [marshal_wire rfl t x (hel x hx)]
  · intro hel
    have hp : EW .borsh (writeSeqLen .borsh xs.length) (fixed .le 4 (xs.length % 2 ^ 32)) := by
      simp only [writeSeqLen]
      rw [← hm, fixed_eq]
      exact (writeUint32_writes .borsh _ .le).ew
    rw [slice_body rfl t xs _ hp (by simpa only [hu] using hel)]
    simp only [hu, Prod.mk.injEq, true_and, List.append_cancel_left_eq]
    exact flatMap_same fun x hx => by rw [marshal_wire rfl t x (hel x hx)]

/-- C15, the same for slices of unsigned integers, which are written in one piece, little endian. -/
theorem C15_uints (t : Ty) (w : Width) (hu : t.uintKind = some w) (ns : List Nat) (hn : ∀ n ∈ ns, n < 2 ^ w.bits) :
    (65535 < ns.length →
      marshal .compactU16 (.slice t) (.seq (some (ns.map .uint))) = (.ok (), ns.flatMap (fixed .le w.bytes))) ∧
    marshal .borsh (.slice t) (.seq (some (ns.map .uint))) =
      (.ok (), fixed .le 4 (ns.length % 2 ^ 32) ++ ns.flatMap (fixed .le w.bytes)) := by
  have hm : ((ns.length : Int) % 2 ^ 32).toNat = ns.length % 2 ^ 32 := by omega
  have hel : ∀ x ∈ ns.map Val.uint, UintElem w x := by
    intro x hx
    obtain ⟨n, h1, rfl⟩ := List.mem_map.mp hx
    exact hn n h1
  have hfl : (ns.map Val.uint).flatMap (uintWire w) = ns.flatMap (fixed .le w.bytes) := by
    induction ns with
    | nil => rfl
    | cons n ns ih =>
      simp only [List.map_cons, List.flatMap_cons, uintWire]
      rw [ih (fun m hm => hn m (by simp [hm])) (by omega) (fun x hx => hel x (by simp [hx]))]
  constructor
  · intro hl
    have hp : EW .compactU16 (writeSeqLen .compactU16 (ns.map Val.uint).length) [] := by
      simp only [writeSeqLen, writeCompactU16, encodeCompactU16Length_eq, List.length_map]
      rw [if_neg (by omega)]
      exact (toWriter_writes .compactU16 []).ew
    rw [slice_body rfl t _ [] hp (by simpa only [hu] using hel)]
    simp only [hu, List.nil_append, hfl]
  · have hp : EW .borsh (writeSeqLen .borsh (ns.map Val.uint).length) (fixed .le 4 (ns.length % 2 ^ 32)) := by
      simp only [writeSeqLen, List.length_map]
      rw [← hm, fixed_eq]
      exact (writeUint32_writes .borsh _ .le).ew
    rw [slice_body rfl t _ _ hp (by simpa only [hu] using hel)]
    simp only [hu, hfl]

/-- 65536 booleans in CompactU16 (a prefix would have made it 65539 bytes). -/
example (n : Nat) (hn : n = 65536) :
    (marshal .compactU16 (.slice .bool) (.seq (some (List.replicate n (.bool true))))).2 = List.replicate n 1 := by
  rw [(C15_slice .bool rfl _).1 (by rw [List.length_replicate]; omega)
    (fun x hx => by rw [List.eq_of_mem_replicate hx]; simp only [Encodable])]
  clear hn
  induction n with
  | zero => rfl
  | succ n ih =>
    rw [List.replicate_succ, List.replicate_succ, List.flatMap_cons]
    simp only at ih ⊢
    rw [ih]; rfl

/-! ### C17 and C18: `SetPosition` with an argument of 2^63 or more -/

/-- C17, exactly: `SetPosition` succeeds for every argument from 2^63 on, and leaves the cursor at `idx - 2^64`, before the
start of the buffer; below 2^63 it succeeds exactly for positions before the end. -/
theorem C17_setPosition (d : Dec) (idx : Nat) (hi : idx < 2 ^ 64) :
    (2 ^ 63 ≤ idx → setPosition idx d = (.ok (), { d with pos := (idx : Int) - 2 ^ 64 })) ∧
    (idx < 2 ^ 63 → idx < d.data.length → setPosition idx d = (.ok (), { d with pos := idx })) ∧
    (idx < 2 ^ 63 → d.data.length ≤ idx → setPosition idx d = (.err .badPos, d)) := by
  have hg : setPosition idx d = if toSigned 64 idx < d.data.length then (.ok (), { d with pos := toSigned 64 idx })
      else (.err .badPos, d) := by
    unfold setPosition
    rw [M.bind_apply]
    simp only [M.get_apply]
    split <;> rfl
  rw [hg]
  refine ⟨fun h => ?_, fun h h' => ?_, fun h h' => ?_⟩
  · have : toSigned 64 idx = (idx : Int) - 2 ^ 64 := by unfold toSigned; rw [if_neg (by omega)]
    rw [this, if_pos (by omega)]
  · have : toSigned 64 idx = (idx : Int) := by unfold toSigned; rw [if_pos (by omega)]
    rw [this, if_pos (by omega)]
  · have : toSigned 64 idx = (idx : Int) := by unfold toSigned; rw [if_pos (by omega)]
    rw [this, if_neg (by omega)]

/-- C17: whenever `SetPosition` succeeds, `Position` then returns its argument. -/
theorem C17_position (d d' : Dec) (idx : Nat) (hi : idx < 2 ^ 64) (h : setPosition idx d = (.ok (), d')) : d'.position = idx := by
  have hg : setPosition idx d = if toSigned 64 idx < d.data.length then (.ok (), { d with pos := toSigned 64 idx })
      else (.err .badPos, d) := by
    unfold setPosition
    rw [M.bind_apply]
    simp only [M.get_apply]
    split <;> rfl
  rw [hg] at h
  split at h
  · cases h
    exact toUnsigned_toSigned (by decide) hi
  · cases h

example : ∃ d', setPosition (2 ^ 64 - 3) (Dec.new [1, 2] .bin) = (.ok (), d') ∧ d'.position = 2 ^ 64 - 3 :=
  ⟨_, rfl, by decide⟩

/-- What a call wants from the buffer: nothing, that many bytes at once, or all of the rest (a varint). -/
inductive Wants where
  | nothing
  | bytes (n : Int)
  | rest

/-- What each call wants of a decoder using encoding `e`. -/
def DOp.wants (e : Encoding) : DOp → Wants
  | .byte | .bool | .u8 | .i8 | .option => .bytes 1
  | .u16 _ | .i16 _ => .bytes 2
  | .coption | .u32 _ | .i32 _ | .f32 _ => .bytes 4
  | .u64 _ | .i64 _ | .f64 _ | .rustStr | .typeID | .peekDisc => .bytes 8
  | .u128 _ | .i128 _ | .f128 _ => .bytes 16
  | .uvarint64 | .varint64 | .uvarint32 | .varint32 | .uvarint16 | .varint16 | .compactU16 => .rest
  | .length | .byteSlice | .str | .safeStr => if e = .borsh then .bytes 4 else .rest
  | .nbytes n => if n ≤ 0 ∨ 0x7FFFFFFF < n then .nothing else .bytes n
  | .readInto k => .bytes k
  | .peek n => if n < 0 then .nothing else .bytes n
  | .discard _ | .skip _ | .setPosition _ | .setEncoding _ => .nothing

/-- Whether a call that wants this panics when the cursor is before the start of the buffer. -/
def Wants.panics (d : Dec) : Wants → Prop
  | .nothing => False
  | .bytes n => n ≤ d.remaining
  | .rest => True

theorem restM_neg {d : Dec} (h : d.pos < 0) : restM d = (.panic, d) := by
  unfold restM; rw [if_neg (by omega)]
theorem sliceM_neg {d : Dec} (h : d.pos < 0) (n : Int) : sliceM n d = (.panic, d) := by
  unfold sliceM; rw [if_neg (by omega)]

/-- At a cursor before the start, this call either fails for lack of bytes or panics, and does not move the cursor. -/
def Starved {α : Type} (r : DM α) (d : Dec) (w : Wants) : Prop :=
  (w.panics d → r d = (.panic, d)) ∧ (¬ w.panics d → ∃ x, r d = (.err x, d))

theorem Starved.bind {α β : Type} {r : DM α} {f : α → DM β} {d : Dec} {w : Wants} (h : Starved r d w) :
    Starved (r >>= f) d w :=
  ⟨fun hw => M.bind_panic (h.1 hw), fun hw => by obtain ⟨x, hx⟩ := h.2 hw; exact ⟨x, M.bind_err hx⟩⟩

theorem Starved.rest {α : Type} {f : Bytes → DM α} {d : Dec} (h : d.pos < 0) : Starved (restM >>= f) d .rest :=
  ⟨fun _ => M.bind_panic (restM_neg h), fun hw => (hw trivial).elim⟩

theorem Starved.check {α : Type} {d : Dec} (n : Int) (x : Err) {g : DM α} (hg : n ≤ d.remaining → g d = (.panic, d)) :
    Starved (do let d ← M.get; if d.remaining < n then M.err x else g) d (.bytes n) := by
  refine ⟨fun hw => ?_, fun hw => ⟨x, ?_⟩⟩
  · have hw' : n ≤ d.remaining := hw
    rw [M.bind_ok (M.get_apply d), if_neg (by omega)]; exact hg hw'
  · have hw' : ¬ n ≤ d.remaining := hw
    rw [M.bind_ok (M.get_apply d), if_pos (by omega)]; rfl

theorem readByte_starved {d : Dec} (h : d.pos < 0) : Starved readByte d (.bytes 1) :=
  Starved.check 1 .notEnough fun _ => M.bind_panic (restM_neg h)
theorem readUint16_starved {d : Dec} (h : d.pos < 0) (o : Order) : Starved (readUint16 o) d (.bytes 2) :=
  Starved.check 2 .notEnough fun _ => M.bind_panic (restM_neg h)
theorem readUint32_starved {d : Dec} (h : d.pos < 0) (o : Order) : Starved (readUint32 o) d (.bytes 4) :=
  Starved.check 4 .notEnough fun _ => M.bind_panic (restM_neg h)

theorem readNBytes_starved {d : Dec} (h : d.pos < 0) (n : Int) (hn : ¬ (n ≤ 0 ∨ 0x7FFFFFFF < n)) :
    Starved (readNBytes n) d (.bytes n) := by
  have hr : d.remaining = (d.data.length : Int) - d.pos := rfl
  unfold readNBytes
  rw [if_neg (by omega), if_neg (by omega)]
  refine ⟨fun hw => ?_, fun hw => ⟨.notEnough, ?_⟩⟩
  · have hw' : n ≤ d.remaining := hw
    rw [M.bind_ok (M.get_apply d), if_neg (by omega)]
    exact M.bind_panic (sliceM_neg h n)
  · have hw' : ¬ n ≤ d.remaining := hw
    rw [M.bind_ok (M.get_apply d), if_pos (by omega)]; rfl

theorem readUint64_starved {d : Dec} (h : d.pos < 0) (o : Order) : Starved (readUint64 o) d (.bytes 8) :=
  Starved.check 8 .notEnough fun hw => M.bind_panic ((readNBytes_starved h 8 (by omega)).1 hw)

theorem readUint128_starved {d : Dec} (h : d.pos < 0) (o : Order) : Starved (readUint128 o) d (.bytes 16) :=
  Starved.check 16 .notEnough fun _ => M.bind_panic (sliceM_neg h 16)

theorem readUvarint64_starved {d : Dec} (h : d.pos < 0) : Starved readUvarint64 d .rest := Starved.rest h
theorem readVarint64_starved {d : Dec} (h : d.pos < 0) : Starved readVarint64 d .rest := Starved.rest h
theorem readCompactU16_starved {d : Dec} (h : d.pos < 0) : Starved readCompactU16 d .rest := Starved.rest h

theorem readLength_starved {d : Dec} (h : d.pos < 0) (hv : d.enc.valid = true) :
    Starved readLength d (if d.enc = .borsh then .bytes 4 else .rest) := by
  have hl := readLength_enc (d := d)
  unfold Starved
  rw [hl]
  cases he : d.enc with
  | bin => exact (readUvarint64_starved h).bind
  | compactU16 => exact readCompactU16_starved h
  | borsh => exact (readUint32_starved h .le).bind
  | other => rw [he] at hv; cases hv

theorem peek_starved {d : Dec} (h : d.pos < 0) (n : Int) (hn : ¬ n < 0) : Starved (peek n) d (.bytes n) := by
  unfold peek
  rw [if_neg hn]
  exact Starved.check n .notEnough fun _ => sliceM_neg h n

theorem readInto_starved {d : Dec} (h : d.pos < 0) (k : Nat) : Starved (readInto k) d (.bytes k) := by
  have hr : d.remaining = (d.data.length : Int) - d.pos := rfl
  unfold readInto
  refine ⟨fun hw => ?_, fun hw => ⟨.shortBuffer, ?_⟩⟩
  · have hw' : (k : Int) ≤ d.remaining := hw
    rw [M.bind_ok (M.get_apply d), if_neg (by omega)]
    exact M.bind_panic (restM_neg h)
  · have hw' : ¬ (k : Int) ≤ d.remaining := hw
    rw [M.bind_ok (M.get_apply d), if_pos (by omega)]; rfl

/-- The cursor is before the start of the buffer, but not so far that `Len() - pos` overflows. -/
def Before (d : Dec) : Prop := -2 ^ 62 ≤ d.pos ∧ d.pos < 0 ∧ d.data.length < 2 ^ 62

/-- C18, exactly: which calls panic when a wrapped `SetPosition` has left the cursor before the start of the buffer: all the
varint and length reads, and every call that wants some number of bytes (even none: `Read` of an empty slice, `Peek(0)`) when
`Remaining()` seems to allow it.  Such a call, panicking or failing, does not move the cursor. -/
theorem C18_before (op : DOp) (d : Dec) (hb : Before d) (hv : d.enc.valid = true) :
    ((op.run d).1 = .panic ↔ (op.wants d.enc).panics d) ∧
    ((∀ n, op ≠ .discard n) → (∀ n, op ≠ .skip n) → (∀ i, op ≠ .setPosition i) → (op.run d).2.pos = d.pos) := by
  have h := hb.2.1
  have hs : ∀ {r : DM Unit} {w : Wants}, Starved r d w → ((r d).1 = .panic ↔ w.panics d) ∧ (r d).2.pos = d.pos := by
    intro r w hs
    by_cases hw : w.panics d
    · rw [hs.1 hw]; simp [hw]
    · obtain ⟨x, hx⟩ := hs.2 hw
      rw [hx]; simp [hw]
  have done : ∀ {w : Wants}, Starved op.run d w → ((op.run d).1 = .panic ↔ w.panics d) ∧
      ((∀ n, op ≠ .discard n) → (∀ n, op ≠ .skip n) → (∀ i, op ≠ .setPosition i) → (op.run d).2.pos = d.pos) :=
    fun hh => ⟨(hs hh).1, fun _ _ _ => (hs hh).2⟩
  cases op with
  | byte => exact done (readByte_starved h).bind
  | bool =>
    exact done (Starved.bind (Starved.check 1 .notEnough fun hw => M.bind_panic ((readByte_starved h).1 hw)))
  | u8 => exact done (readByte_starved h).bind.bind
  | i8 => exact done (readByte_starved h).bind.bind
  | option => exact done (readByte_starved h).bind.bind
  | coption => exact done (readUint32_starved h .le).bind.bind
  | u16 o => exact done (readUint16_starved h o).bind
  | i16 o => exact done (readUint16_starved h o).bind.bind
  | u32 o => exact done (readUint32_starved h o).bind
  | i32 o => exact done (readUint32_starved h o).bind.bind
  | u64 o => exact done (readUint64_starved h o).bind
  | i64 o => exact done (readUint64_starved h o).bind.bind
  | u128 o => exact done (readUint128_starved h o).bind
  | i128 o => exact done (Starved.bind (readUint128_starved h o))
  | f128 o => exact done (Starved.bind (readUint128_starved h o))
  | f32 o =>
    refine done (Starved.bind ?_)
    exact Starved.check 4 .notEnough fun _ => M.bind_panic (restM_neg h)
  | f64 o =>
    refine done (Starved.bind ?_)
    exact Starved.check 8 .notEnough fun _ => M.bind_panic (restM_neg h)
  | uvarint64 => exact done (readUvarint64_starved h).bind
  | varint64 => exact done (readVarint64_starved h).bind
  | uvarint32 => exact done (readUvarint64_starved h).bind.bind
  | varint32 => exact done (readVarint64_starved h).bind.bind
  | uvarint16 => exact done (readUvarint64_starved h).bind.bind
  | varint16 => exact done (readVarint64_starved h).bind.bind
  | compactU16 => exact done (readCompactU16_starved h).bind
  | length => exact done (readLength_starved h hv).bind
  | byteSlice => exact done (Starved.bind (Starved.bind (readLength_starved h hv)))
  | str => exact done (Starved.bind (Starved.bind (readLength_starved h hv)))
  | safeStr => exact done (Starved.bind (Starved.bind (Starved.bind (readLength_starved h hv))))
  | rustStr => exact done (Starved.bind (Starved.bind (readUint64_starved h .le)))
  | nbytes n =>
    by_cases hn : n ≤ 0 ∨ 0x7FFFFFFF < n
    · have hw : DOp.wants d.enc (.nbytes n) = .nothing := by simp only [DOp.wants]; rw [if_pos hn]
      have hr : ∃ r : Res Unit, r ≠ .panic ∧ DOp.run (.nbytes n) d = (r, d) := by
        simp only [DOp.run]
        unfold readNBytes
        by_cases h0 : n = 0
        · rw [if_pos h0]; exact ⟨.ok (), by simp, rfl⟩
        · rw [if_neg h0, if_pos (by omega)]; exact ⟨.err .invalidLen, by simp, rfl⟩
      obtain ⟨r, h1, h2⟩ := hr
      rw [hw, h2]
      exact ⟨⟨fun hh => absurd hh h1, fun hh => hh.elim⟩, fun _ _ _ => rfl⟩
    · have hw : DOp.wants d.enc (.nbytes n) = .bytes n := by simp only [DOp.wants]; rw [if_neg hn]
      rw [hw]
      exact done (readNBytes_starved h n hn).bind
  | readInto k => exact done (readInto_starved h k).bind
  | peek n =>
    by_cases hn : n < 0
    · have hw : DOp.wants d.enc (.peek n) = .nothing := by simp only [DOp.wants]; rw [if_pos hn]
      have hr : DOp.run (.peek n) d = (.err .invalidLen, d) := by
        simp only [DOp.run]; unfold peek; rw [if_pos hn]; rfl
      rw [hw, hr]
      exact ⟨⟨fun hh => by simp at hh, fun hh => hh.elim⟩, fun _ _ _ => rfl⟩
    · have hw : DOp.wants d.enc (.peek n) = .bytes n := by simp only [DOp.wants]; rw [if_neg hn]
      rw [hw]
      exact done (peek_starved h n hn).bind
  | typeID => exact done (Starved.bind (Starved.bind (readNBytes_starved h 8 (by omega))))
  | peekDisc => exact done (Starved.bind (Starved.bind (peek_starved h 8 (by omega))))
  | discard n =>
    refine ⟨⟨fun hh => ?_, fun hh => hh.elim⟩, fun hh => absurd rfl (hh n)⟩
    simp only [DOp.run] at hh
    unfold discard skipBytes at hh
    split at hh
    · cases hh
    split at hh
    · cases hh
    rw [M.bind_ok (M.get_apply d)] at hh
    split at hh <;> cases hh
  | skip n =>
    refine ⟨⟨fun hh => ?_, fun hh => hh.elim⟩, fun _ hh => absurd rfl (hh n)⟩
    simp only [DOp.run] at hh
    unfold skipBytes at hh
    rw [M.bind_ok (M.get_apply d)] at hh
    split at hh <;> cases hh
  | setPosition i =>
    refine ⟨⟨fun hh => ?_, fun hh => hh.elim⟩, fun _ _ hh => absurd rfl (hh i)⟩
    simp only [DOp.run] at hh
    unfold setPosition at hh
    rw [M.bind_ok (M.get_apply d)] at hh
    split at hh <;> cases hh
  | setEncoding e => exact ⟨⟨fun hh => (by cases hh), fun hh => hh.elim⟩, fun _ _ _ => rfl⟩

/-- `SkipBytes` walks on from before the start, and can bring the cursor back into the buffer. -/
theorem C17_skip_before (d : Dec) (hb : Before d) (n : Nat) :
    skipBytes n d = if (n : Int) ≤ d.remaining then (.ok (), { d with pos := d.pos + n }) else (.err .notEnough, d) := by
  obtain ⟨h1, h2, h3⟩ := hb
  have hr : d.remaining = (d.data.length : Int) - d.pos := rfl
  unfold skipBytes
  rw [M.bind_ok (M.get_apply d), toUnsigned_of_nonneg (by omega) (by omega)]
  by_cases h : (n : Int) ≤ d.remaining
  · have ht : toSigned 64 n = (n : Int) := by unfold toSigned; rw [if_pos (by omega)]
    rw [if_neg (by omega), if_pos h, ht]; rfl
  · rw [if_pos (by omega), if_neg h]; rfl

/-- Three bytes, the cursor at -1: four bytes seem to remain, so that reading a uint32 panics and a uint64 is refused; a
Borsh string panics like the uint32; `Peek(0)` panics; skipping one byte brings the cursor to the start. -/
example :
    let d := after [.setPosition (2 ^ 64 - 1)] (Dec.new [1, 2, 3] .borsh)
    Before d ∧ (DOp.run (.u32 .le) d).1 = .panic ∧ (DOp.run (.u64 .le) d).1 = .err .notEnough ∧
    (DOp.run .str d).1 = .panic ∧ (DOp.run (.peek 0) d).1 = .panic ∧ (DOp.run (.skip 1) d).2.pos = 0 := by
  refine ⟨⟨by decide, by decide, by decide⟩, by decide, by decide, by decide, by decide, by decide⟩

/-! ### C58: exactly when a slice of elements without bytes comes back -/

/-- C58, exactly: a non-empty slice of elements that occupy no bytes comes back if and only if at least as many bytes
follow it as it has elements; otherwise it is refused. -/
theorem C58_iff {e : Encoding} (he : e.valid = true) (t : Ty) (xs : List Val) (hz : ZeroSize e t xs) (h1 : 1 ≤ xs.length)
    (hn : xs.length ≤ readMax e) (tail : Bytes) :
    let r := unmarshal e (.slice t) (.seq none) ((marshal e (.slice t) (.seq (some xs))).2 ++ tail)
    (r = .ok (.seq (some (xs.map (copy e t)))) ↔ xs.length ≤ tail.length) ∧
    (r = .err .eof ↔ tail.length < xs.length) := by
  intro r
  have hr : r = if tail.length < xs.length then .err .eof else .ok (.seq (some (xs.map (copy e t)))) := by
    show unmarshal e (.slice t) (.seq none) ((marshal e (.slice t) (.seq (some xs))).2 ++ tail) = _
    rw [zeroSize_marshal he t xs hz hn]
    exact zeroSize_unmarshal he t xs hz h1 hn tail
  rw [hr]
  by_cases h : tail.length < xs.length
  · rw [if_pos h]; simp; omega
  · rw [if_neg h]; simp; omega

example : unmarshal .borsh (.slice (.lib .emptyVariant)) (.seq none) [2, 0, 0, 0, 9] = .err .eof := by decide +kernel

end Verif.Props
