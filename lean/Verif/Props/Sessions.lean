import Verif.Proofs.Bridge
/-! Properties C17-C20 and C60: sequences of decoder / encoder calls. -/
namespace Verif.Props
open Verif Verif.Spec

/-- Every primitive decoder call, with its arguments. -/
inductive DOp where
  | byte | bool | u8 | i8 | option | coption
  | u16 (o : Order) | i16 (o : Order) | u32 (o : Order) | i32 (o : Order) | u64 (o : Order) | i64 (o : Order)
  | u128 (o : Order) | i128 (o : Order) | f32 (o : Order) | f64 (o : Order) | f128 (o : Order)
  | uvarint64 | varint64 | uvarint32 | varint32 | uvarint16 | varint16
  | compactU16 | length | byteSlice | str | safeStr | rustStr
  | nbytes (n : Int) | readInto (k : Nat) | discard (n : Int) | skip (n : Nat) | peek (n : Int)
  | typeID | peekDisc
  | setPosition (idx : Nat) | setEncoding (e : Encoding)

/-- The call, forgetting the value it returns. -/
def DOp.run : DOp → DM Unit
  | .byte => readByte >>= fun _ => pure () | .bool => readBool >>= fun _ => pure ()
  | .u8 => readUint8 >>= fun _ => pure () | .i8 => readInt8 >>= fun _ => pure ()
  | .option => readOption >>= fun _ => pure () | .coption => readCOption >>= fun _ => pure ()
  | .u16 o => readUint16 o >>= fun _ => pure () | .i16 o => readInt16 o >>= fun _ => pure ()
  | .u32 o => readUint32 o >>= fun _ => pure () | .i32 o => readInt32 o >>= fun _ => pure ()
  | .u64 o => readUint64 o >>= fun _ => pure () | .i64 o => readInt64 o >>= fun _ => pure ()
  | .u128 o => readUint128 o >>= fun _ => pure () | .i128 o => readInt128 o >>= fun _ => pure ()
  | .f32 o => readFloat32 o >>= fun _ => pure () | .f64 o => readFloat64 o >>= fun _ => pure ()
  | .f128 o => readFloat128 o >>= fun _ => pure ()
  | .uvarint64 => readUvarint64 >>= fun _ => pure () | .varint64 => readVarint64 >>= fun _ => pure ()
  | .uvarint32 => readUvarint32 >>= fun _ => pure () | .varint32 => readVarint32 >>= fun _ => pure ()
  | .uvarint16 => readUvarint16 >>= fun _ => pure () | .varint16 => readVarint16 >>= fun _ => pure ()
  | .compactU16 => readCompactU16 >>= fun _ => pure () | .length => readLength >>= fun _ => pure ()
  | .byteSlice => readByteSlice >>= fun _ => pure () | .str => readString >>= fun _ => pure ()
  | .safeStr => safeReadUTF8String >>= fun _ => pure () | .rustStr => readRustString >>= fun _ => pure ()
  | .nbytes n => readNBytes n >>= fun _ => pure () | .readInto k => Verif.readInto k >>= fun _ => pure ()
  | .discard n => Verif.discard n | .skip n => skipBytes n | .peek n => Verif.peek n >>= fun _ => pure ()
  | .typeID => readTypeID >>= fun _ => pure () | .peekDisc => peekDiscriminator >>= fun _ => pure ()
  | .setPosition idx => Verif.setPosition idx
  | .setEncoding e => M.modify (Dec.setEncoding e)

/-- Arguments for which C17/C18 hold: SetPosition below 2^63, SetEncoding with one of the three encodings. -/
def DOp.Fair : DOp → Prop
  | .setPosition idx => idx < 2 ^ 63
  | .setEncoding e => e.valid = true
  | _ => True

/-- The decoder after a sequence of calls, each made whether or not the previous ones succeeded. -/
def after : List DOp → Dec → Dec
  | [], d => d
  | op :: ops, d => after ops (op.run d).2

/-- What one call does: no panic, cursor inside the buffer, buffer kept; never backwards except SetPosition. -/
structure StepOk (op : DOp) (d : Dec) : Prop where
  noPanic : (op.run d).1 ≠ .panic
  inside : Inside (op.run d).2
  data : (op.run d).2.data = d.data
  valid : (op.run d).2.enc.valid = true
  forward : (∀ i, op ≠ .setPosition i) → d.pos ≤ (op.run d).2.pos

theorem prim_unit {α : Type} {r : DM α} (h : Prim r) : Prim (r >>= fun _ => (pure () : DM Unit)) :=
  h.bind fun _ => Prim.pure _

theorem peek_prim (n : Int) : Prim (peek n) := by
  intro d ho _
  rw [peek_eq ho]
  by_cases h1 : n < 0
  · exact ⟨.err .invalidLen, 0, by simp [h1], by simp, by omega⟩
  by_cases h2 : (d.rest.length : Int) < n
  · exact ⟨.err .notEnough, 0, by rw [if_neg h1, if_pos h2, Dec.adv_zero], by simp, by omega⟩
  · exact ⟨_, 0, by rw [if_neg h1, if_neg h2, Dec.adv_zero], by simp, by omega⟩

theorem readInto_prim (k : Nat) : Prim (readInto k) := by
  intro d ho _
  rw [readInto_eq ho]
  by_cases h1 : d.rest.length < k
  · exact ⟨.err .shortBuffer, 0, by simp [h1], by simp, by omega⟩
  · exact ⟨_, k, by rw [if_neg h1], by simp, by omega⟩

theorem step_of_prim {op : DOp} {d : Dec} (hd : Inside d) (hv : d.enc.valid = true) (h : Prim op.run) : StepOk op d := by
  obtain ⟨res, k, hr, hp, hk⟩ := h d hd hv
  have hdl : d.rest.length ≤ d.data.length := by simp [Dec.rest]
  exact ⟨by rw [hr]; exact hp, by rw [hr]; exact Dec.adv_ok hd hk, by rw [hr]; rfl, by rw [hr]; exact hv,
    fun _ => by rw [hr]; simp only [Dec.adv_pos]; omega⟩

theorem stepOk (op : DOp) (d : Dec) (hd : Inside d) (hv : d.enc.valid = true) (hl : d.data.length < 2 ^ 63) (hf : op.Fair) :
    StepOk op d := by
  cases op with
  | byte => exact step_of_prim hd hv (prim_unit readByte_prim)
  | bool => exact step_of_prim hd hv (prim_unit readBool_prim)
  | u8 => exact step_of_prim hd hv (prim_unit readUint8_prim)
  | i8 => exact step_of_prim hd hv (prim_unit readInt8_prim)
  | option => exact step_of_prim hd hv (prim_unit readOption_prim)
  | coption => exact step_of_prim hd hv (prim_unit readCOption_prim)
  | u16 o => exact step_of_prim hd hv (prim_unit (readUint16_prim o))
  | i16 o => exact step_of_prim hd hv (prim_unit (readInt16_prim o))
  | u32 o => exact step_of_prim hd hv (prim_unit (readUint32_prim o))
  | i32 o => exact step_of_prim hd hv (prim_unit (readInt32_prim o))
  | u64 o => exact step_of_prim hd hv (prim_unit (readUint64_prim o))
  | i64 o => exact step_of_prim hd hv (prim_unit (readInt64_prim o))
  | u128 o => exact step_of_prim hd hv (prim_unit (readUint128_prim o))
  | i128 o => exact step_of_prim hd hv (prim_unit (readUint128_prim o))
  | f32 o => exact step_of_prim hd hv (prim_unit (readFloat32_prim o))
  | f64 o => exact step_of_prim hd hv (prim_unit (readFloat64_prim o))
  | f128 o => exact step_of_prim hd hv (prim_unit (readUint128_prim o))
  | uvarint64 => exact step_of_prim hd hv (prim_unit readUvarint64_prim)
  | varint64 => exact step_of_prim hd hv (prim_unit readVarint64_prim)
  | uvarint32 => exact step_of_prim hd hv (prim_unit readUvarint32_prim)
  | varint32 => exact step_of_prim hd hv (prim_unit readVarint32_prim)
  | uvarint16 => exact step_of_prim hd hv (prim_unit readUvarint16_prim)
  | varint16 => exact step_of_prim hd hv (prim_unit readVarint16_prim)
  | compactU16 => exact step_of_prim hd hv (prim_unit readCompactU16_prim)
  | length => exact step_of_prim hd hv (prim_unit readLength_prim)
  | byteSlice => exact step_of_prim hd hv (prim_unit readByteSlice_prim)
  | str => exact step_of_prim hd hv (prim_unit readString_prim)
  | safeStr => exact step_of_prim hd hv (prim_unit safeReadUTF8String_prim)
  | rustStr => exact step_of_prim hd hv (prim_unit readRustString_prim)
  | nbytes n => exact step_of_prim hd hv (prim_unit (readNBytes_prim n))
  | readInto k => exact step_of_prim hd hv (prim_unit (readInto_prim k))
  | peek n => exact step_of_prim hd hv (prim_unit (peek_prim n))
  | typeID => exact step_of_prim hd hv (prim_unit ((readNBytes_prim 8).bind fun _ => Prim.pure _))
  | peekDisc => exact step_of_prim hd hv (prim_unit ((peek_prim 8).bind fun _ => Prim.pure _))
  | discard n =>
    have h := discard_eq hd hl n
    have key : ∃ (res : Res Unit) (k : Nat), discard n d = (res, d.adv k) ∧ res ≠ .panic ∧ k ≤ d.rest.length := by
      rw [h]
      by_cases h0 : n = 0
      · exact ⟨.ok (), 0, by simp [h0], by simp, by omega⟩
      by_cases h1 : n < 0 ∨ n > 0x7FFFFFFF
      · exact ⟨.err .invalidLen, 0, by simp [h0, h1], by simp, by omega⟩
      by_cases h2 : (d.rest.length : Int) < n
      · exact ⟨.err .notEnough, 0, by rw [if_neg h0, if_neg h1, if_pos h2, Dec.adv_zero], by simp, by omega⟩
      · exact ⟨.ok (), n.toNat, by rw [if_neg h0, if_neg h1, if_neg h2], by simp, by omega⟩
    obtain ⟨res, k, hr, hp, hk⟩ := key
    have hr' : DOp.run (.discard n) d = (res, d.adv k) := hr
    exact ⟨by rw [hr']; exact hp, by rw [hr']; exact Dec.adv_ok hd hk, by rw [hr']; rfl, by rw [hr']; exact hv,
      fun _ => by rw [hr']; simp only [Dec.adv_pos]; omega⟩
  | skip n =>
    have h := skipBytes_eq hd hl n
    have key : ∃ (res : Res Unit) (k : Nat), skipBytes n d = (res, d.adv k) ∧ res ≠ .panic ∧ k ≤ d.rest.length := by
      rw [h]
      by_cases h2 : d.rest.length < n
      · exact ⟨.err .notEnough, 0, by rw [if_pos h2, Dec.adv_zero], by simp, by omega⟩
      · exact ⟨.ok (), n, by rw [if_neg h2], by simp, by omega⟩
    obtain ⟨res, k, hr, hp, hk⟩ := key
    have hr' : DOp.run (.skip n) d = (res, d.adv k) := hr
    exact ⟨by rw [hr']; exact hp, by rw [hr']; exact Dec.adv_ok hd hk, by rw [hr']; rfl, by rw [hr']; exact hv,
      fun _ => by rw [hr']; simp only [Dec.adv_pos]; omega⟩
  | setPosition idx =>
    have hi : toSigned 64 idx = idx := by
      have : idx < 2 ^ 63 := hf
      unfold toSigned; rw [if_pos (by omega)]
    by_cases h : (idx : Int) < d.data.length
    · have hr : DOp.run (.setPosition idx) d = (.ok (), { d with pos := idx }) := by
        simp only [DOp.run, setPosition, M.bind_apply, M.get_apply, hi]
        rw [if_pos h]; rfl
      exact ⟨by rw [hr]; simp, by rw [hr]; exact ⟨Int.natCast_nonneg idx, Int.le_of_lt h⟩, by rw [hr], by rw [hr]; exact hv,
        fun hn => absurd rfl (hn idx)⟩
    · have hr : DOp.run (.setPosition idx) d = (.err .badPos, d) := by
        simp only [DOp.run, setPosition, M.bind_apply, M.get_apply, hi]
        rw [if_neg h]; rfl
      exact ⟨by rw [hr]; simp, by rw [hr]; exact hd, by rw [hr], by rw [hr]; exact hv, fun hn => absurd rfl (hn idx)⟩
  | setEncoding e => exact ⟨by simp [DOp.run], hd, rfl, hf, fun _ => Int.le_refl _⟩

theorem after_ok (ops : List DOp) : ∀ d : Dec, Inside d → d.enc.valid = true → d.data.length < 2 ^ 63 → (∀ op ∈ ops, op.Fair) →
    Inside (after ops d) ∧ (after ops d).data = d.data ∧ (after ops d).enc.valid = true := by
  induction ops with
  | nil => intro d h1 h2 _ _; exact ⟨h1, rfl, h2⟩
  | cons op ops ih =>
    intro d h1 h2 h3 h4
    have hs := stepOk op d h1 h2 h3 (h4 op (by simp))
    obtain ⟨i1, i2, i3⟩ := ih (op.run d).2 hs.inside hs.valid (by rw [hs.data]; exact h3) (fun o ho => h4 o (by simp [ho]))
    exact ⟨i1, by rw [← hs.data]; exact i2, i3⟩

/-- C17: the invariant after any sequence of calls on a fresh decoder. Partial: SetPosition arguments of 2^63 and more
are excluded (`C17_violated` shows the claim is false for them). -/
theorem C17_cursor_partial (data : Bytes) (hl : data.length < 2 ^ 63) (e : Encoding) (he : e.valid = true) (ops : List DOp)
    (hf : ∀ op ∈ ops, op.Fair) :
    let d := after ops (Dec.new data e)
    0 ≤ d.pos ∧ d.pos ≤ data.length ∧ d.data = data ∧ (d.position : Int) + d.remaining = d.len ∧ d.len = data.length ∧
    (d.hasRemaining = true ↔ d.position < data.length) ∧
    ∀ op : DOp, op.Fair → (∀ i, op ≠ .setPosition i) → d.pos ≤ (op.run d).2.pos := by
  have h0 : Inside (Dec.new data e) := Dec.new_ok data e
  obtain ⟨h1, h2, h3⟩ := after_ok ops (Dec.new data e) h0 he hl hf
  have h2' : (after ops (Dec.new data e)).data = data := h2
  intro d
  have h1' : 0 ≤ d.pos ∧ d.pos ≤ d.data.length := h1
  have hd : d.data = data := h2'
  have hpos : d.position = d.pos.toNat := by
    unfold Dec.position; exact toUnsigned_of_nonneg h1'.1 (by rw [hd] at h1'; omega)
  refine ⟨h1'.1, by rw [← hd]; exact h1'.2, hd, ?_, by simp [Dec.len, hd], ?_, ?_⟩
  · rw [hpos]; simp only [Dec.remaining, Dec.len]; omega
  · rw [hpos]; simp only [Dec.hasRemaining, Dec.remaining, hd, decide_eq_true_eq]
    rw [hd] at h1'; omega
  · intro op hop hne
    exact (stepOk op d h1 h3 (by rw [hd]; exact hl) hop).forward hne

/-- C18: no call in any sequence panics. Partial: SetPosition arguments of 2^63 and more are excluded
(`C18_violated` shows the claim is false for them). -/
theorem C18_no_panic_partial (data : Bytes) (hl : data.length < 2 ^ 63) (e : Encoding) (he : e.valid = true) (ops : List DOp)
    (hf : ∀ op ∈ ops, op.Fair) (op : DOp) (hop : op.Fair) :
    (op.run (after ops (Dec.new data e))).1 ≠ .panic := by
  obtain ⟨h1, h2, h3⟩ := after_ok ops (Dec.new data e) (Dec.new_ok data e) he hl hf
  exact (stepOk op _ h1 h3 (by rw [h2]; exact hl) hop).noPanic

/-- C17 is false for all arguments: SetPosition(2^64-1) succeeds and leaves the cursor at -1
(decoder.go:663 compares `int(idx)`). -/
theorem C17_violated :
    (setPosition (2 ^ 64 - 1) (Dec.new [1, 2, 3] .bin)).1 = .ok () ∧
    (setPosition (2 ^ 64 - 1) (Dec.new [1, 2, 3] .bin)).2.pos = -1 := by decide

/-- C18 is false for all arguments: after SetPosition(2^64-1) the next read panics. -/
theorem C18_violated :
    (DOp.run .byte (after [.setPosition (2 ^ 64 - 1)] (Dec.new [1, 2, 3] .bin))).1 = .panic := by decide

example : (after [.u16 .le, .peek 100, .setPosition 1, .str] (Dec.new [1, 2, 3] .borsh)).pos = 1 := by decide

/-! ### C19: write sessions -/

/-- Values as returned by the mirrored reads. -/
inductive Out where
  | nat (n : Nat) | int (z : Int) | bool (b : Bool) | bytes (b : Bytes) | words (lo hi : Nat)
  deriving DecidableEq

/-- A typed write call. -/
inductive WOp where
  | byte (b : UInt8) | bool (b : Bool) | option (b : Bool) | coption (b : Bool)
  | u8 (v : Nat) | i8 (z : Int)
  | u16 (v : Nat) (o : Order) | i16 (z : Int) (o : Order) | u32 (v : Nat) (o : Order) | i32 (z : Int) (o : Order)
  | u64 (v : Nat) (o : Order) | i64 (z : Int) (o : Order) | u128 (lo hi : Nat) (o : Order) | i128 (lo hi : Nat) (o : Order)
  | f32 (bits : Nat) (o : Order) | f64 (bits : Nat) (o : Order)
  | uvarint (v : Nat) | varint (z : Int) | compact (n : Nat) | length (n : Nat)
  | bytes (b : Bytes) | str (b : Bytes) | rustStr (b : Bytes) | raw (b : Bytes)

def WOp.write : WOp → EM Unit
  | .byte b => writeByte b | .bool b => writeBool b | .option b => writeOption b | .coption b => writeCOption b
  | .u8 v => writeUint8 v | .i8 z => writeInt8 z
  | .u16 v o => writeUint16 v o | .i16 z o => writeInt16 z o | .u32 v o => writeUint32 v o | .i32 z o => writeInt32 z o
  | .u64 v o => writeUint64 v o | .i64 z o => writeInt64 z o | .u128 lo hi o => writeUint128 lo hi o | .i128 lo hi o => writeInt128 lo hi o
  | .f32 n o => writeFloat32 n o | .f64 n o => writeFloat64 n o
  | .uvarint v => writeUVarInt v | .varint z => writeVarInt z | .compact n => writeCompactU16 n | .length n => writeLength n
  | .bytes b => writeBytes b true | .str b => writeString b | .rustStr b => writeRustString b | .raw b => writeBytes b false

/-- The mirrored read. -/
def WOp.read : WOp → DM Out
  | .byte _ => readByte >>= fun b => pure (.nat b.toNat) | .bool _ => readBool >>= fun b => pure (.bool b)
  | .option _ => readOption >>= fun b => pure (.bool b) | .coption _ => readCOption >>= fun b => pure (.bool b)
  | .u8 _ => readUint8 >>= fun n => pure (.nat n) | .i8 _ => readInt8 >>= fun n => pure (.int n)
  | .u16 _ o => readUint16 o >>= fun n => pure (.nat n) | .i16 _ o => readInt16 o >>= fun n => pure (.int n)
  | .u32 _ o => readUint32 o >>= fun n => pure (.nat n) | .i32 _ o => readInt32 o >>= fun n => pure (.int n)
  | .u64 _ o => readUint64 o >>= fun n => pure (.nat n) | .i64 _ o => readInt64 o >>= fun n => pure (.int n)
  | .u128 _ _ o => readUint128 o >>= fun p => pure (.words p.1 p.2) | .i128 _ _ o => readInt128 o >>= fun p => pure (.words p.1 p.2)
  | .f32 _ o => readFloat32 o >>= fun n => pure (.nat n) | .f64 _ o => readFloat64 o >>= fun n => pure (.nat n)
  | .uvarint _ => readUvarint64 >>= fun n => pure (.nat n) | .varint _ => readVarint64 >>= fun n => pure (.int n)
  | .compact _ => readCompactU16 >>= fun n => pure (.nat n) | .length _ => readLength >>= fun n => pure (.nat n)
  | .bytes _ => readByteSlice >>= fun b => pure (.bytes b) | .str _ => readString >>= fun b => pure (.bytes b)
  | .rustStr _ => readRustString >>= fun b => pure (.bytes b) | .raw b => readNBytes b.length >>= fun b => pure (.bytes b)

/-- The value written. -/
def WOp.value : WOp → Out
  | .byte b => .nat b.toNat | .bool b => .bool b | .option b => .bool b | .coption b => .bool b
  | .u8 v => .nat v | .i8 z => .int z
  | .u16 v _ => .nat v | .i16 z _ => .int z | .u32 v _ => .nat v | .i32 z _ => .int z
  | .u64 v _ => .nat v | .i64 z _ => .int z | .u128 lo hi _ => .words lo hi | .i128 lo hi _ => .words lo hi
  | .f32 n _ => .nat n | .f64 n _ => .nat n
  | .uvarint v => .nat v | .varint z => .int z | .compact n => .nat n | .length n => .nat n
  | .bytes b => .bytes b | .str b => .bytes b | .rustStr b => .bytes b | .raw b => .bytes b

/-- Arguments are in the range of their Go type and of the encoding. -/
def WOp.InRange (e : Encoding) : WOp → Prop
  | .byte _ | .bool _ | .option _ | .coption _ => True
  | .u8 v => v < 2 ^ 8 | .i8 z => -2 ^ 7 ≤ z ∧ z < 2 ^ 7
  | .u16 v _ => v < 2 ^ 16 | .i16 z _ => -2 ^ 15 ≤ z ∧ z < 2 ^ 15
  | .u32 v _ => v < 2 ^ 32 | .i32 z _ => -2 ^ 31 ≤ z ∧ z < 2 ^ 31
  | .u64 v _ => v < 2 ^ 64 | .i64 z _ => -2 ^ 63 ≤ z ∧ z < 2 ^ 63
  | .u128 lo hi _ => lo < 2 ^ 64 ∧ hi < 2 ^ 64 | .i128 lo hi _ => lo < 2 ^ 64 ∧ hi < 2 ^ 64
  | .f32 n _ => n < 2 ^ 32 ∧ (e = .borsh → isNaN32 n = false)
  | .f64 n _ => n < 2 ^ 64 ∧ (e = .borsh → isNaN64 n = false)
  | .uvarint v => v < 2 ^ 56 | .varint z => -2 ^ 55 ≤ z ∧ z < 2 ^ 55
  | .compact n => n ≤ 65535
  | .length n => n < 2 ^ 31 ∧ (e = .compactU16 → n ≤ 65535)
  | .bytes b | .str b => b.length < 2 ^ 31 ∧ (e = .compactU16 → b.length ≤ 65535)
  | .rustStr b | .raw b => b.length < 2 ^ 31

theorem len_ranges {e : Encoding} (he : e.valid = true) {n : Nat} (h1 : n < 2 ^ 31) (h2 : e = .compactU16 → n ≤ 65535) :
    n ≤ lenMax e ∧ n ≤ lenMaxW e := by
  cases e with
  | bin => simp only [lenMax, lenMaxW]; omega
  | borsh => simp only [lenMax, lenMaxW]; omega
  | compactU16 => exact ⟨h2 rfl, h2 rfl⟩
  | other => simp [Encoding.valid] at he

theorem wop_rt (e : Encoding) (he : e.valid = true) (op : WOp) (h : op.InRange e) :
    ∃ bs, Writes e op.write bs ∧ Reads e op.read bs op.value := by
  have hb : ∀ b : Bool, ((if b then (1 : UInt8) else 0) != 0) = b := by intro b; cases b <;> rfl
  cases op with
  | byte b => exact ⟨_, writeByte_writes e b, (readByte_reads e b).bind_pure (f := fun b : UInt8 => Out.nat b.toNat)⟩
  | bool b =>
    refine ⟨_, writeBool_writes e b, ?_⟩
    have := (readBool_reads e (if b then 1 else 0)).bind_pure (f := Out.bool); rw [hb] at this; exact this
  | option b =>
    refine ⟨_, writeOption_writes e b, ?_⟩
    have := (readOption_reads e (if b then 1 else 0)).bind_pure (f := Out.bool); rw [hb] at this; exact this
  | coption b => exact ⟨_, writeCOption_writes e b, (readCOption_reads e b).bind_pure (f := Out.bool)⟩
  | u8 v => exact ⟨_, writeUint8_writes e v, (readUint8_reads e v h).bind_pure (f := Out.nat)⟩
  | i8 z => exact ⟨_, writeInt8_writes e z, (readInt8_reads e z (by have := h.1; omega) (by have := h.2; omega)).bind_pure (f := Out.int)⟩
  | u16 v o => exact ⟨_, writeUint16_writes e v o, (readUint16_reads e o v h).bind_pure (f := Out.nat)⟩
  | i16 z o => exact ⟨_, writeInt16_writes e z o, (readInt16_reads e o z h.1 h.2).bind_pure (f := Out.int)⟩
  | u32 v o => exact ⟨_, writeUint32_writes e v o, (readUint32_reads e o v h).bind_pure (f := Out.nat)⟩
  | i32 z o => exact ⟨_, writeInt32_writes e z o, (readInt32_reads e o z h.1 h.2).bind_pure (f := Out.int)⟩
  | u64 v o => exact ⟨_, writeUint64_writes e v o, (readUint64_reads e o v h).bind_pure (f := Out.nat)⟩
  | i64 z o => exact ⟨_, writeInt64_writes e z o, (readInt64_reads e o z h.1 h.2).bind_pure (f := Out.int)⟩
  | u128 lo hi o =>
    exact ⟨_, writeUint128_writes e lo hi o, (readUint128_reads e o lo hi h.1 h.2).bind_pure (f := fun p : Nat × Nat => Out.words p.1 p.2)⟩
  | i128 lo hi o =>
    exact ⟨_, writeInt128_writes e lo hi o, (readUint128_reads e o lo hi h.1 h.2).bind_pure (f := fun p : Nat × Nat => Out.words p.1 p.2)⟩
  | f32 n o =>
    have hn : ¬ (e = .borsh ∧ isNaN32 n = true) := fun ⟨h1, h2⟩ => by have := h.2 h1; simp [h2] at this
    exact ⟨_, writeFloat32_writes e n o hn, (readFloat32_reads e o n h.1 hn).bind_pure (f := Out.nat)⟩
  | f64 n o =>
    have hn : ¬ (e = .borsh ∧ isNaN64 n = true) := fun ⟨h1, h2⟩ => by have := h.2 h1; simp [h2] at this
    exact ⟨_, writeFloat64_writes e n o hn, (readFloat64_reads e o n h.1 hn).bind_pure (f := Out.nat)⟩
  | uvarint v =>
    have hv : v < 2 ^ 56 := h
    obtain ⟨hg, hl, h10⟩ := uvarintBytes_groups v (by omega)
    have hr := (readUvarint64_reads e _ hg h10 (by omega)).bind_pure (f := Out.nat)
    rw [hl] at hr
    have hw := writeUVarInt_writes e v (by omega) (by omega)
    rw [Int.toNat_natCast] at hw
    exact ⟨_, hw, hr⟩
  | varint z =>
    have h0 := h.1
    have h1 := h.2
    have hz : zigzag z < 2 ^ 56 := by
      by_cases h : 0 ≤ z
      · rw [zigzag_of_nonneg h (by omega)]; omega
      · rw [zigzag_of_neg (by omega) (by omega)]; omega
    obtain ⟨hg, hl, h10⟩ := uvarintBytes_groups (zigzag z) (by omega)
    have hr := (readVarint64_reads e _ hg h10 (by omega)).bind_pure (f := Out.int)
    rw [hl, unzigzag_zigzag (by omega) (by omega)] at hr
    exact ⟨_, writeVarInt_writes e z hz, hr⟩
  | compact n => exact ⟨_, writeCompactU16_writes e n h, (readCompactU16_reads e n h).bind_pure (f := Out.nat)⟩
  | length n =>
    obtain ⟨h1, h2⟩ := len_ranges he h.1 h.2
    exact ⟨_, writeLength_writes e he n h2, (readLength_reads e he n h1).bind_pure (f := Out.nat)⟩
  | bytes b =>
    obtain ⟨h1, h2⟩ := len_ranges he h.1 h.2
    exact ⟨_, writeBytes_writes e he b h2, (readByteSlice_reads e he b h1).bind_pure (f := Out.bytes)⟩
  | str b =>
    obtain ⟨h1, h2⟩ := len_ranges he h.1 h.2
    exact ⟨_, writeBytes_writes e he b h2, (readByteSlice_reads e he b h1).bind_pure (f := Out.bytes)⟩
  | rustStr b =>
    have hb' : b.length < 2 ^ 31 := h
    exact ⟨_, writeRustString_writes e b (by omega), (readRustString_reads e b (by omega)).bind_pure (f := Out.bytes)⟩
  | raw b =>
    have hb' : b.length < 2 ^ 31 := h
    exact ⟨_, writeBytesRaw_writes e b, (readNBytes_reads e b (by omega)).bind_pure (f := Out.bytes)⟩

/-- All writes of the session, in order (stopping at the first error, which does not occur here). -/
def writeAll : List WOp → EM Unit
  | [] => pure ()
  | op :: ops => op.write >>= fun _ => writeAll ops

/-- All mirrored reads, in order. -/
def readAll : List WOp → DM (List Out)
  | [] => pure []
  | op :: ops => op.read >>= fun v => readAll ops >>= fun vs => pure (v :: vs)

/-- C19: a write session is read back by the mirrored read session. -/
theorem C19_session (e : Encoding) (he : e.valid = true) (ops : List WOp) (h : ∀ op ∈ ops, op.InRange e) :
    ∃ n, RoundTrip e (writeAll ops) (readAll ops) n (ops.map WOp.value) := by
  have key : ∃ bs, Writes e (writeAll ops) bs ∧ Reads e (readAll ops) bs (ops.map WOp.value) := by
    induction ops with
    | nil => exact ⟨[], Writes.pure, Reads.pure _⟩
    | cons op ops ih =>
      obtain ⟨b1, w1, r1⟩ := wop_rt e he op (h op (by simp))
      obtain ⟨b2, w2, r2⟩ := ih (fun o ho => h o (by simp [ho]))
      exact ⟨b1 ++ b2, w1.seq w2, r1.bind (r2.bind_pure (f := fun vs => op.value :: vs))⟩
  obtain ⟨bs, hw, hr⟩ := key
  exact ⟨bs.length, roundTrip_mk hw hr rfl⟩

example : ∀ op ∈ [WOp.u16 513 .be, .str [104], .f32 0x3f800000 .le, .varint (-7), .bool true], op.InRange .borsh := by
  intro op hop
  simp only [List.mem_cons, List.not_mem_nil, or_false] at hop
  rcases hop with rfl | rfl | rfl | rfl | rfl <;> simp [WOp.InRange, isNaN32]

/-! ### C20 -/

/-- C20: Peek / ReadNBytes / Read / Discard / SkipBytes when the `n` bytes are there. -/
theorem C20_take (e : Encoding) (cur : Option Order) (pre bs post : Bytes) (h : bs.length ≤ 0x7FFFFFFF)
    (hl : (pre ++ (bs ++ post)).length < 2 ^ 63) :
    let d := decAt e cur pre (bs ++ post)
    let d' := decAt e cur (pre ++ bs) post
    peek bs.length d = (.ok bs, d) ∧ readNBytes bs.length d = (.ok bs, d') ∧ readInto bs.length d = (.ok bs, d') ∧
    discard bs.length d = (.ok (), d') ∧ skipBytes bs.length d = (.ok (), d') := by
  have hok := decAt_ok e cur pre (bs ++ post)
  have hadv := decAt_adv e cur pre bs post
  have hdl : (decAt e cur pre (bs ++ post)).data.length < 2 ^ 63 := hl
  intro d d'
  refine ⟨?_, ?_, ?_, ?_, ?_⟩
  · rw [peek_eq hok, if_neg (by omega), decAt_rest, if_neg (by simp; omega)]; simp [d]
  · exact (readNBytes_reads e bs h).consumes cur pre post
  · rw [readInto_eq hok, decAt_rest, if_neg (by simp), hadv]; simp [d']
  · rw [discard_eq hok hdl, decAt_rest]
    by_cases h0 : bs.length = 0
    · have : bs = [] := List.length_eq_zero_iff.mp h0
      subst this; simp [d, d']
    · rw [if_neg (by omega), if_neg (by omega), if_neg (by simp; omega), Int.toNat_natCast, hadv]
  · rw [skipBytes_eq hok hdl, decAt_rest, if_neg (by simp), hadv]

/-- C20: and when they are not, or `n` is negative: an error, nothing moves. -/
theorem C20_short (d : Dec) (hd : Inside d) (hl : d.data.length < 2 ^ 63) (n : Int) (h : n < 0 ∨ left d < n) :
    (∃ x, peek n d = (.err x, d)) ∧ (∃ x, readNBytes n d = (.err x, d)) ∧ (∃ x, discard n d = (.err x, d)) ∧
    (0 ≤ n → ∃ x, skipBytes n.toNat d = (.err x, d)) ∧ (0 ≤ n → ∃ x, readInto n.toNat d = (.err x, d)) := by
  rw [left_eq hd] at h
  have hn : n ≠ 0 := by omega
  refine ⟨?_, ?_, ?_, fun h0 => ?_, fun h0 => ?_⟩
  · rw [peek_eq hd]; split
    · exact ⟨_, rfl⟩
    · rw [if_pos (by omega)]; exact ⟨_, rfl⟩
  · rw [readNBytes_eq hd, if_neg hn]; split
    · exact ⟨_, rfl⟩
    · rw [if_pos (by omega)]; exact ⟨_, rfl⟩
  · rw [discard_eq hd hl, if_neg hn]; split
    · exact ⟨_, rfl⟩
    · rw [if_pos (by omega)]; exact ⟨_, rfl⟩
  · rw [skipBytes_eq hd hl, if_pos (by omega)]; exact ⟨_, rfl⟩
  · rw [readInto_eq hd, if_pos (by omega)]; exact ⟨_, rfl⟩

/-- C20: SetPosition(i) puts the cursor at offset `i` of the buffer, so that the next read sees the bytes from there;
offsets at or beyond the end are refused without moving. -/
theorem C20_setPosition (e : Encoding) (cur : Option Order) (d : Dec) (i : Nat) (hi : i < 2 ^ 63)
    (he : d.enc = e) (hc : d.cur = cur) :
    (i < d.data.length → setPosition i d = (.ok (), decAt e cur (d.data.take i) (d.data.drop i))) ∧
    (d.data.length ≤ i → ∃ x, setPosition i d = (.err x, d)) := by
  have ht : toSigned 64 i = i := by unfold toSigned; rw [if_pos (by omega)]
  refine ⟨fun h => ?_, fun h => ?_⟩
  · simp only [setPosition, M.bind_apply, M.get_apply, ht]
    rw [if_pos (by omega)]
    simp only [M.modify_apply, decAt, List.take_append_drop, List.length_take, ← he, ← hc]
    rw [Nat.min_eq_left (by omega)]
  · simp only [setPosition, M.bind_apply, M.get_apply, ht]
    rw [if_neg (by omega)]; exact ⟨_, rfl⟩

/-- C20: discriminators are the next eight bytes. -/
theorem C20_typeID (e : Encoding) (cur : Option Order) (pre bs post : Bytes) (h : bs.length = 8) :
    readTypeID (decAt e cur pre (bs ++ post)) = (.ok bs, decAt e cur (pre ++ bs) post) ∧
    peekDiscriminator (decAt e cur pre (bs ++ post)) = (.ok bs, decAt e cur pre (bs ++ post)) := by
  have ht : typeIDFromBytes bs = bs := by
    unfold typeIDFromBytes
    rw [List.take_of_length_le (by omega), h]; simp
  constructor
  · unfold readTypeID
    have := (readNBytes_reads e bs (by omega)).consumes cur pre post
    rw [h] at this
    rw [M.bind_ok (m := readNBytes 8) this, ht]; rfl
  · unfold peekDiscriminator
    have h1 : peek 8 (decAt e cur pre (bs ++ post)) = (.ok bs, decAt e cur pre (bs ++ post)) := by
      rw [peek_eq (decAt_ok _ _ _ _), if_neg (by omega), decAt_rest, if_neg (by simp; omega)]
      rw [show (8 : Int).toNat = bs.length by omega]; simp
    rw [M.bind_ok h1, ht]; rfl

/-- C60: after Reset the decoder is indistinguishable from a new one of the same encoding, whatever it did before. -/
theorem C60_reset (d : Dec) (ops : List DOp) (data : Bytes) :
    Dec.reset data (after ops d) = Dec.new data (after ops d).enc := rfl

example : Dec.reset [5] (after [.u16 .le] (Dec.new [1, 2, 3] .borsh)) = Dec.new [5] .borsh := by decide

end Verif.Props
