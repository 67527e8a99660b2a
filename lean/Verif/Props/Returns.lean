import Verif.Model.Returns
import Verif.Spec.Returns
/-!
# C106: a failed read returns the zero value
-/
namespace Verif.Props
open Spec

section
variable {σ α β γ δ : Type}

private theorem ret_pure (a : α) (val : α → β) (z : β) : BothResults (pure a : M σ α) val z (pure (val a, none)) := fun _ => rfl

private theorem ret_err (x : Err) (val : α → β) (z : β) : BothResults (M.err x : M σ α) val z (pure (z, some x)) := fun _ => rfl

private theorem ret_panic (val : α → β) (z : β) : BothResults (M.panic : M σ α) val z M.panic := fun _ => rfl

/-- The same steps first, if they do not fail. -/
private theorem ret_bind {k : M σ γ} (hk : ∀ s x, (k s).1 ≠ .err x) {m : γ → M σ α} {val : α → β} {z : β} {b : γ → M σ (β × Option Err)}
    (h : ∀ c, BothResults (m c) val z (b c)) : BothResults (k >>= m) val z (k >>= b) := by
  intro s
  have h1 := hk s
  rw [M.bind_apply, M.bind_apply]
  rcases hc : k s with ⟨c | x | _, s'⟩
  · exact h c s'
  · rw [hc] at h1; exact absurd rfl (h1 x)
  · rfl

/-- Another read first: after its error (`if err != nil { return z', err }`, or going on with its value) the results are `z'` and the error. -/
private theorem ret_check {m : M σ α} {val : α → β} {z : β} {b : M σ (β × Option Err)} (h : BothResults m val z b) {f : α → M σ γ}
    {val' : γ → δ} {z' : δ} {g : β × Option Err → M σ (δ × Option Err)} (hx : ∀ x s, g (z, some x) s = (.ok (z', some x), s))
    (hg : ∀ a, BothResults (f a) val' z' (g (val a, none))) : BothResults (m >>= f) val' z' (b >>= g) := by
  intro s
  rw [M.bind_apply, M.bind_apply, h s]
  rcases m s with ⟨a | x | _, s'⟩
  · exact hg a s'
  · exact hx x s'
  · rfl

private theorem ret_if {p : Prop} [Decidable p] {m m' : M σ α} {val : α → β} {z : β} {b b' : M σ (β × Option Err)}
    (h : BothResults m val z b) (h' : BothResults m' val z b') : BothResults (if p then m else m') val z (if p then b else b') := by
  by_cases hp : p
  · rw [if_pos hp, if_pos hp]; exact h
  · rw [if_neg hp, if_neg hp]; exact h'

private theorem pure_never (a : α) (s : σ) (x : Err) : ((pure a : M σ α) s).1 ≠ .err x := by simp [M.pure_apply]

private theorem then_pure (m : M σ α) : (m >>= fun a => pure a) = m := by
  funext s
  rw [M.bind_apply]
  rcases m s with ⟨a | x | _, s'⟩ <;> rfl

private theorem ret_drop {m : M σ α} {val : α → β} {z : β} {b : M σ (β × Option Err)} (h : BothResults (m >>= fun a => pure a) val z b) :
    BothResults m val z b := by rwa [then_pure] at h

private theorem get_never (s : σ) (x : Err) : ((M.get : M σ σ) s).1 ≠ .err x := by simp [M.get]
end

private theorem rest_never (d : Dec) (x : Err) : (restM d).1 ≠ .err x := by unfold restM; split <;> simp
private theorem slice_never (n : Int) (d : Dec) (x : Err) : (sliceM n d).1 ≠ .err x := by unfold sliceM; split <;> simp
private theorem adv_never (n : Int) (d : Dec) (x : Err) : (advance n d).1 ≠ .err x := by simp [advance, M.modify]
private theorem uint_never (o : Order) (n : Nat) (b : Bytes) (d : Dec) (x : Err) : ((M.lift (getUint o n b) : DM Nat) d).1 ≠ .err x := by
  cases o <;> unfold getUint M.lift <;> by_cases h : b.length < n <;> simp [h]

/-! ### varints -/

private theorem uvarint_zero : ∀ (b : Bytes) (x i : Nat), (uvarintLoop x i b).2 ≤ 0 → (uvarintLoop x i b).1 = 0
  | [], x, i, _ => rfl
  | c :: b, x, i, h => by
    rw [uvarintLoop] at h ⊢
    split
    · rfl
    · rename_i h1
      rw [if_neg h1] at h
      split
      · rename_i h2
        rw [if_pos h2] at h
        split
        · rfl
        · rename_i h3
          rw [if_neg h3] at h
          simp only at h; omega
      · rename_i h2
        rw [if_neg h2] at h
        exact uvarint_zero b _ _ h

theorem C106_uvarint64 : BothResults readUvarint64 id 0 readUvarint64B := by
  refine ret_bind rest_never fun b => ?_
  show BothResults (if (goUvarint b).2 ≤ 0 then _ else _) id 0 (if (goUvarint b).2 ≤ 0 then _ else _)
  by_cases h : (goUvarint b).2 ≤ 0
  · rw [if_pos h, if_pos h]
    have := uvarint_zero b 0 0 h
    rw [this]
    exact ret_err _ _ _
  · rw [if_neg h, if_neg h]
    exact ret_bind (adv_never _) fun _ => ret_pure _ _ _

theorem C106_varint64 : BothResults readVarint64 id 0 readVarint64B := by
  refine ret_bind rest_never fun b => ?_
  show BothResults (if (goVarint b).2 ≤ 0 then _ else _) id 0 (if (goVarint b).2 ≤ 0 then _ else _)
  by_cases h : (goVarint b).2 ≤ 0
  · rw [if_pos h, if_pos h]
    have := uvarint_zero b 0 0 h
    rw [this, show unzigzag 0 = 0 by decide]
    exact ret_err _ _ _
  · rw [if_neg h, if_neg h]
    exact ret_bind (adv_never _) fun _ => ret_pure _ _ _

theorem C106_varint32 : BothResults readVarint32 id 0 readVarint32B := ret_check C106_varint64 (fun _ _ => rfl) fun _ => ret_pure _ _ _
theorem C106_uvarint32 : BothResults readUvarint32 id 0 readUvarint32B := ret_check C106_uvarint64 (fun _ _ => rfl) fun _ => ret_pure _ _ _
theorem C106_varint16 : BothResults readVarint16 id 0 readVarint16B := ret_check C106_varint64 (fun _ _ => rfl) fun _ => ret_pure _ _ _
theorem C106_uvarint16 : BothResults readUvarint16 id 0 readUvarint16B := ret_check C106_uvarint64 (fun _ _ => rfl) fun _ => ret_pure _ _ _

/-! ### bytes and flags -/

theorem C106_byte : BothResults readByte id 0 readByteB := by
  refine ret_bind get_never fun d => ret_if (ret_err _ _ _) (ret_bind rest_never fun b => ?_)
  cases b with
  | nil => exact ret_panic _ _
  | cons x _ => exact ret_bind (adv_never _) fun _ => ret_pure _ _ _

theorem C106_uint8 : BothResults readUint8 id 0 readUint8B := ret_check C106_byte (fun _ _ => rfl) fun _ => ret_pure _ _ _
theorem C106_int8 : BothResults readInt8 id 0 readInt8B :=
  ret_check C106_byte (fun _ _ => rfl) fun _ => ret_pure _ _ _
theorem C106_bool : BothResults readBool id false readBoolB :=
  ret_bind get_never fun _ => ret_if (ret_err _ _ _) (ret_check C106_byte (fun _ _ => rfl) fun _ => ret_pure _ _ _)
theorem C106_option : BothResults readOption id false readOptionB := ret_check C106_byte (fun _ _ => rfl) fun _ => ret_pure _ _ _

/-! ### fixed widths -/

private theorem fixed (o : Order) (n : Nat) : BothResults (do
    let d ← M.get
    if d.remaining < (n : Int) then M.err .notEnough
    else do
      let b ← restM
      let k ← M.lift (getUint o n b)
      advance n
      pure k) id 0 (readFixedB o n) :=
  ret_bind get_never fun _ => ret_if (ret_err _ _ _) (ret_bind rest_never fun _ => ret_bind (uint_never _ _ _) fun _ =>
    ret_bind (adv_never _) fun _ => ret_pure _ _ _)

theorem C106_uint16 (o : Order) : BothResults (readUint16 o) id 0 (readUint16B o) := fixed o 2
theorem C106_uint32 (o : Order) : BothResults (readUint32 o) id 0 (readUint32B o) := fixed o 4
theorem C106_int16 (o : Order) : BothResults (readInt16 o) id 0 (readInt16B o) :=
  ret_check (C106_uint16 o) (fun _ _ => rfl) fun _ => ret_pure _ _ _
theorem C106_int32 (o : Order) : BothResults (readInt32 o) id 0 (readInt32B o) :=
  ret_check (C106_uint32 o) (fun _ _ => rfl) fun _ => ret_pure _ _ _
theorem C106_coption : BothResults readCOption id false readCOptionB :=
  ret_check (C106_uint32 .le) (fun _ _ => rfl) fun _ => ret_if (ret_err _ _ _) (ret_pure _ _ _)

theorem C106_nbytes (n : Int) : BothResults (readNBytes n) some none (readNBytesB n) :=
  ret_if (ret_pure _ _ _) (ret_if (ret_err _ _ _) (ret_bind get_never fun _ => ret_if (ret_err _ _ _)
    (ret_bind (slice_never _) fun _ => ret_bind (adv_never _) fun _ => ret_pure _ _ _)))

theorem C106_uint64 (o : Order) : BothResults (readUint64 o) id 0 (readUint64B o) := by
  refine ret_bind get_never fun _ => ret_if (ret_err _ _ _) (ret_check (C106_nbytes 8) (fun _ _ => rfl) fun data d => ?_)
  have h := uint_never o 8 data d
  show (if (none : Option Err) ≠ none then _ else (M.lift (getUint o 8 data) : DM Nat) >>= fun out => pure (out, none) : DM (Nat × Option Err)) d = _
  rw [if_neg (by simp), M.bind_apply]
  rcases hc : (M.lift (getUint o 8 data) : DM Nat) d with ⟨c | x | _, s'⟩
  · rfl
  · rw [hc] at h; exact absurd rfl (h x)
  · rfl

theorem C106_int64 (o : Order) : BothResults (readInt64 o) id 0 (readInt64B o) :=
  ret_check (C106_uint64 o) (fun _ _ => rfl) fun _ => ret_pure _ _ _

theorem C106_uint128 (o : Order) : BothResults (readUint128 o) id (0, 0) (readUint128B o) := by
  refine ret_bind get_never fun _ => ret_if (ret_err _ _ _) (ret_bind (slice_never _) fun data => ?_)
  cases o
  · exact ret_bind (uint_never _ _ _) fun _ => ret_bind (uint_never _ _ _) fun _ => ret_bind (pure_never _) fun _ =>
      ret_bind (adv_never _) fun _ => ret_pure _ _ _
  · exact ret_bind (uint_never _ _ _) fun _ => ret_bind (uint_never _ _ _) fun _ => ret_bind (pure_never _) fun _ =>
      ret_bind (adv_never _) fun _ => ret_pure _ _ _

theorem C106_int128 (o : Order) : BothResults (readInt128 o) id (0, 0) (readInt128B o) :=
  ret_drop (m := readUint128 o) (ret_check (g := fun p => if p.2 ≠ none then pure ((0, 0), p.2) else pure (p.1, none)) (C106_uint128 o)
    (fun _ _ => rfl) fun _ => ret_pure _ _ _)
theorem C106_float128 (o : Order) : BothResults (readFloat128 o) id (0, 0) (readFloat128B o) :=
  ret_drop (m := readUint128 o) (ret_check (g := fun p => if p.2 ≠ none then pure ((0, 0), p.2) else pure (p.1, none)) (C106_uint128 o)
    (fun _ _ => rfl) fun _ => ret_pure _ _ _)

/-- Also for a NaN that Borsh refuses. -/
theorem C106_float32 (o : Order) : BothResults (readFloat32 o) id 0 (readFloat32B o) :=
  ret_bind get_never fun _ => ret_if (ret_err _ _ _) (ret_bind rest_never fun _ => ret_bind (uint_never _ _ _) fun _ =>
    ret_bind (adv_never _) fun _ => ret_if (ret_err _ _ _) (ret_pure _ _ _))
theorem C106_float64 (o : Order) : BothResults (readFloat64 o) id 0 (readFloat64B o) :=
  ret_bind get_never fun _ => ret_if (ret_err _ _ _) (ret_bind rest_never fun _ => ret_bind (uint_never _ _ _) fun _ =>
    ret_bind (adv_never _) fun _ => ret_if (ret_err _ _ _) (ret_pure _ _ _))

/-! ### lengths -/

private theorem compact_loop : ∀ (fuel ln nth : Nat) (b : Bytes), decodeCompactLoopB ln nth fuel b =
    match decodeCompactLoop ln nth fuel b with
    | .ok p => .ok p
    | .err x => .error (0, 0, x)
    | .panic => .error (0, 0, .eof)
  | 0, _, _, _ => rfl
  | _ + 1, _, _, [] => rfl
  | fuel + 1, ln, nth, c :: b => by
    rw [decodeCompactLoopB, decodeCompactLoop]
    by_cases h1 : c = 0 ∧ nth ≠ 0
    · simp [if_pos h1]
    by_cases h2 : nth = 2 ∧ c &&& 0x80 ≠ 0
    · simp only [if_neg h1, if_pos h2]
    by_cases h3 : c &&& 0x80 = 0
    · simp only [if_neg h1, if_neg h2, if_pos h3]
    · simp only [if_neg h1, if_neg h2, if_neg h3]
      exact compact_loop fuel _ _ b

private theorem compact_total : ∀ (fuel ln nth : Nat) (b : Bytes), decodeCompactLoop ln nth fuel b ≠ .panic
  | 0, _, _, _ => by simp [decodeCompactLoop]
  | _ + 1, _, _, [] => by simp [decodeCompactLoop]
  | fuel + 1, ln, nth, c :: b => by
    rw [decodeCompactLoop]
    split
    · simp
    · split
      · simp
      · simp only
        split
        · simp
        · exact compact_total fuel _ _ b

/-- C106 for `DecodeCompactU16`: with an error, both the length and the size are zero. -/
theorem C106_decode_compact (b : Bytes) : decodeCompactU16B b = match decodeCompactU16 b with
    | .ok (ln, size) => (ln, size, none)
    | .err x => (0, 0, some x)
    | .panic => (0, 0, none) := by
  have ht := compact_total 3 0 0 b
  unfold decodeCompactU16B decodeCompactU16
  rw [compact_loop]
  rcases h : decodeCompactLoop 0 0 3 b with ⟨ln, size⟩ | x | _
  · simp only
    split
    · rfl
    · split <;> rfl
  · rfl
  · exact absurd h ht

theorem C106_compact : BothResults readCompactU16 id 0 readCompactU16B := by
  refine ret_bind rest_never fun b => ?_
  have hp : decodeCompactU16 b ≠ .panic := by
    have ht := compact_total 3 0 0 b
    unfold decodeCompactU16
    rcases h : decodeCompactLoop 0 0 3 b with ⟨ln, size⟩ | x | _
    · simp only
      split
      · simp
      · split <;> simp
    · simp
    · exact absurd h ht
  simp only
  rw [C106_decode_compact]
  rcases h : decodeCompactU16 b with ⟨ln, size⟩ | x | _
  · exact ret_bind (adv_never _) fun _ => ret_pure _ _ _
  · intro d
    simp [M.bind_apply, advance, M.modify, M.pure_apply, M.err]
  · exact absurd h hp

theorem C106_length : BothResults readLength id 0 readLengthB := by
  refine ret_bind get_never fun d => ?_
  cases d.enc
  · exact ret_check C106_uvarint64 (fun _ _ => rfl) fun _ => ret_if (ret_err _ _ _) (ret_pure _ _ _)
  · simp only
    rw [← then_pure readCompactU16]
    exact ret_check C106_compact (fun _ _ => rfl) fun _ => ret_pure _ _ _
  · exact ret_check (C106_uint32 .le) (fun _ _ => rfl) fun _ => ret_if (ret_err _ _ _) (ret_pure _ _ _)
  · exact ret_panic _ _

theorem C106_byteSlice : BothResults readByteSlice some none readByteSliceB :=
  ret_check C106_length (fun _ _ => rfl) fun _ => ret_bind get_never fun _ => ret_if (ret_err _ _ _)
    (ret_bind (slice_never _) fun _ => ret_bind (adv_never _) fun _ => ret_pure _ _ _)

theorem C106_string : BothResults readString id [] readStringB := by
  rw [readString, ← then_pure readByteSlice]
  exact ret_check C106_byteSlice (fun _ _ => rfl) fun _ => ret_pure _ _ _
theorem C106_safeString : BothResults safeReadUTF8String id [] safeReadUTF8StringB :=
  ret_check C106_byteSlice (fun _ _ => rfl) fun _ => ret_pure _ _ _
theorem C106_rustString : BothResults readRustString id [] readRustStringB := by
  refine ret_check (C106_uint64 .le) (fun _ _ => rfl) fun n => ret_if (ret_err _ _ _) ?_
  have : (readNBytes n >>= fun x => pure x) = readNBytes n := then_pure _
  rw [← this]
  exact ret_check (C106_nbytes _) (fun _ _ => rfl) fun _ => ret_pure _ _ _

/-! ### the others -/

theorem C106_peek (n : Int) : BothResults (peek n) some none (peekB n) := by
  refine ret_if (ret_err _ _ _) (ret_bind get_never fun _ => ret_if (ret_err _ _ _) ?_)
  exact ret_drop (ret_bind (slice_never n) fun a => ret_pure a some none)
theorem C106_typeID : BothResults readTypeID id (List.replicate 8 0) readTypeIDB :=
  ret_check (C106_nbytes 8) (fun _ _ => rfl) fun _ => ret_pure _ _ _
theorem C106_peekDiscriminator : BothResults peekDiscriminator id (List.replicate 8 0) peekDiscriminatorB :=
  ret_check (C106_peek 8) (fun _ _ => rfl) fun _ => ret_pure _ _ _

/-- `Read` returns the length of the buffer or zero. -/
theorem C106_read (k : Nat) : BothResults (readInto k) (fun _ => k) 0 (readB k) :=
  ret_bind get_never fun _ => ret_if (ret_err _ _ _) (ret_bind rest_never fun _ => ret_bind (adv_never _) fun _ =>
    ret_if (ret_err _ _ _) (ret_pure _ _ _))

private theorem reader_loop {σ ε : Type} (r : ByteReader σ ε) : ∀ (fuel ln nth : Nat) (s : σ), byteReaderLoopB r ln nth fuel s =
    match byteReaderLoop r ln nth fuel s with
    | (.ok p, s') => (.ok p, s')
    | (.reader x, s') => (.error (0, .inl x), s')
    | (.own x, s') => (.error (0, .inr x), s')
  | 0, _, _, _ => rfl
  | fuel + 1, ln, nth, s => by
    rw [byteReaderLoopB, byteReaderLoop]
    rcases r s with ⟨x | c, s'⟩
    · rfl
    simp only
    by_cases h1 : c = 0 ∧ nth ≠ 0
    · simp [if_pos h1]
    by_cases h2 : nth = 2 ∧ c &&& 0x80 ≠ 0
    · simp only [if_neg h1, if_pos h2]
    by_cases h3 : c &&& 0x80 = 0
    · simp only [if_neg h1, if_neg h2, if_pos h3]
    · simp only [if_neg h1, if_neg h2, if_neg h3]
      exact reader_loop r fuel _ _ s'

/-- C106 for `DecodeCompactU16LengthFromByteReader`, with any reader. -/
theorem C106_byte_reader {σ ε : Type} (r : ByteReader σ ε) (s : σ) : decodeCompactFromByteReaderB r s =
    match decodeCompactFromByteReader r s with
    | (.ok n, s') => ((n, none), s')
    | (.reader x, s') => ((0, some (.inl x)), s')
    | (.own x, s') => ((0, some (.inr x)), s') := by
  unfold decodeCompactFromByteReaderB decodeCompactFromByteReader
  rw [reader_loop]
  rcases byteReaderLoop r 0 0 3 s with ⟨⟨ln, size⟩ | x | x, s'⟩
  · simp only
    split
    · rfl
    · split <;> rfl
  · rfl
  · rfl

/-! ### concrete cases -/

/-- Two bytes of an unfinished varint, ten and more bytes of a too long one: zero each time. -/
example : readUvarint64B (Dec.new [0xac, 0x82] .bin) = (.ok (0, some .varint), Dec.new [0xac, 0x82] .bin) := by decide +kernel
example : (readUvarint64B (Dec.new (List.replicate 11 0xff) .bin)).1 = .ok (0, some .varint) := by decide +kernel
example : readVarint16B (Dec.new [0xac, 0x02] .bin) = (.ok (150, none), { Dec.new [0xac, 0x02] .bin with pos := 2 }) := by decide +kernel
/-- A NaN: zero, an error, and a cursor that has moved. -/
example : readFloat32B .le (Dec.new [0, 0, 0xc0, 0x7f] .borsh) = (.ok (0, some .nan), { Dec.new [0, 0, 0xc0, 0x7f] .borsh with pos := 4 }) := by
  decide +kernel
/-- A length without its bytes: nil from `ReadByteSlice`, the empty string from `ReadString`. -/
example : (readByteSliceB (Dec.new [3, 1] .bin)).1 = .ok (none, some .notEnough) ∧ (readStringB (Dec.new [3, 1] .bin)).1 = .ok ([], some .notEnough) ∧
    (readByteSliceB (Dec.new [0] .bin)).1 = .ok (some [], none) := by decide +kernel
example : (readCompactU16B (Dec.new [0xff, 0xff, 0x07] .bin)).1 = .ok (0, some .badCompact) ∧
    (readTypeIDB (Dec.new [1, 2] .bin)).1 = .ok (List.replicate 8 0, some .notEnough) := by decide +kernel

end Verif.Props
