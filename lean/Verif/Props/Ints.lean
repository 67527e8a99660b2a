import Verif.Proofs.Bridge
/-! Properties C01-C03: fixed-width integers. -/
namespace Verif.Props
open Verif Verif.Spec

/-- C01, unsigned 8/16/32/64 bits. -/
theorem C01_uint (e : Encoding) (o : Order) (v : Nat) :
    (v < 2 ^ 8 → RoundTrip e (writeUint8 v) readUint8 1 v) ∧
    (v < 2 ^ 16 → RoundTrip e (writeUint16 v o) (readUint16 o) 2 v) ∧
    (v < 2 ^ 32 → RoundTrip e (writeUint32 v o) (readUint32 o) 4 v) ∧
    (v < 2 ^ 64 → RoundTrip e (writeUint64 v o) (readUint64 o) 8 v) :=
  ⟨fun h => roundTrip_mk (writeUint8_writes e v) (readUint8_reads e v (by omega)) (by simp),
   fun h => roundTrip_mk (writeUint16_writes e v o) (readUint16_reads e o v h) (by simp),
   fun h => roundTrip_mk (writeUint32_writes e v o) (readUint32_reads e o v h) (by simp),
   fun h => roundTrip_mk (writeUint64_writes e v o) (readUint64_reads e o v h) (by simp)⟩

/-- C01, signed 8/16/32/64 bits. -/
theorem C01_int (e : Encoding) (o : Order) (z : Int) :
    (-2 ^ 7 ≤ z → z < 2 ^ 7 → RoundTrip e (writeInt8 z) readInt8 1 z) ∧
    (-2 ^ 15 ≤ z → z < 2 ^ 15 → RoundTrip e (writeInt16 z o) (readInt16 o) 2 z) ∧
    (-2 ^ 31 ≤ z → z < 2 ^ 31 → RoundTrip e (writeInt32 z o) (readInt32 o) 4 z) ∧
    (-2 ^ 63 ≤ z → z < 2 ^ 63 → RoundTrip e (writeInt64 z o) (readInt64 o) 8 z) :=
  ⟨fun h h' => roundTrip_mk (writeInt8_writes e z) (readInt8_reads e z (by omega) (by omega)) (by simp),
   fun h h' => roundTrip_mk (writeInt16_writes e z o) (readInt16_reads e o z h h') (by simp),
   fun h h' => roundTrip_mk (writeInt32_writes e z o) (readInt32_reads e o z h h') (by simp),
   fun h h' => roundTrip_mk (writeInt64_writes e z o) (readInt64_reads e o z h h') (by simp)⟩

/-- C01, 128 bits (words `lo`, `hi`), unsigned and signed and the raw float. -/
theorem C01_128 (e : Encoding) (o : Order) (lo hi : Nat) (h1 : lo < 2 ^ 64) (h2 : hi < 2 ^ 64) :
    RoundTrip e (writeUint128 lo hi o) (readUint128 o) 16 (lo, hi) ∧
    RoundTrip e (writeInt128 lo hi o) (readInt128 o) 16 (lo, hi) ∧
    RoundTrip e (writeUint128 lo hi o) (readFloat128 o) 16 (lo, hi) :=
  ⟨roundTrip_mk (writeUint128_writes e lo hi o) (readUint128_reads e o lo hi h1 h2) (by simp),
   roundTrip_mk (writeInt128_writes e lo hi o) (readUint128_reads e o lo hi h1 h2) (by simp),
   roundTrip_mk (writeUint128_writes e lo hi o) (readUint128_reads e o lo hi h1 h2) (by simp)⟩

example : RoundTrip .borsh (writeInt16 (-2) .be) (readInt16 .be) 2 (-2) := (C01_int .borsh .be (-2)).2.1 (by decide) (by decide)
example : readInt16 .be (decAt .borsh none [7] ([0xff, 0xfe] ++ [9])) = (.ok (-2), decAt .borsh none [7, 0xff, 0xfe] [9]) := by decide

/-- The positional layout: `n` bytes, byte `i` of the little-endian form is `(v / 256^i) % 256`. -/
def Layout (o : Order) (n v : Nat) (bs : Bytes) : Prop :=
  bs.length = n ∧ ∀ i, (h : i < n) →
    (match o with
      | .le => bs[i]?
      | .be => bs[n - 1 - i]?) = some (UInt8.ofNat (v / 256 ^ i % 256))

theorem putLE_getElem? (k v i : Nat) (h : i < k) : (putLE k v)[i]? = some (UInt8.ofNat (v / 256 ^ i % 256)) := by
  induction k generalizing v i with
  | zero => omega
  | succ k ih =>
    cases i with
    | zero =>
      simp only [putLE, List.getElem?_cons_zero, Option.some.injEq]
      apply UInt8.toNat_inj.mp
      rw [UInt8.toNat_ofNat', UInt8.toNat_ofNat']; simp
    | succ i =>
      simp only [putLE, List.getElem?_cons_succ]
      rw [ih _ _ (by omega), Nat.div_div_eq_div_mul, Nat.pow_succ, Nat.mul_comm]

theorem putUint_layout (o : Order) (n v : Nat) : Layout o n v (putUint o n v) := by
  refine ⟨by simp, fun i h => ?_⟩
  cases o with
  | le => exact putLE_getElem? n v i h
  | be =>
    simp only [putUint]
    rw [List.getElem?_reverse (by simp; omega)]
    rw [putLE_length, show n - 1 - (n - 1 - i) = i by omega]
    exact putLE_getElem? n v i h

/-- C02: WriteUintN produces the positional layout; signed integers are written as two's complement. -/
theorem C02_layout (s : Enc) (hs : NoFail s) (o : Order) (v : Nat) (z : Int) :
    (v < 2 ^ 8 → Emits (writeUint8 v) s [UInt8.ofNat v]) ∧
    (∃ bs, Emits (writeUint16 v o) s bs ∧ Layout o 2 v bs) ∧
    (∃ bs, Emits (writeUint32 v o) s bs ∧ Layout o 4 v bs) ∧
    (∃ bs, Emits (writeUint64 v o) s bs ∧ Layout o 8 v bs) ∧
    Emits (writeInt8 z) s [UInt8.ofNat (z % 2 ^ 8).toNat] ∧
    (∃ bs, Emits (writeInt16 z o) s bs ∧ Layout o 2 (z % 2 ^ 16).toNat bs) ∧
    (∃ bs, Emits (writeInt32 z o) s bs ∧ Layout o 4 (z % 2 ^ 32).toNat bs) ∧
    (∃ bs, Emits (writeInt64 z o) s bs ∧ Layout o 8 (z % 2 ^ 64).toNat bs) :=
  ⟨fun _ => (writeUint8_writes _ v).emits s rfl hs,
   ⟨_, (writeUint16_writes _ v o).emits s rfl hs, putUint_layout ..⟩,
   ⟨_, (writeUint32_writes _ v o).emits s rfl hs, putUint_layout ..⟩,
   ⟨_, (writeUint64_writes _ v o).emits s rfl hs, putUint_layout ..⟩,
   (writeInt8_writes _ z).emits s rfl hs,
   ⟨_, (writeInt16_writes _ z o).emits s rfl hs, putUint_layout ..⟩,
   ⟨_, (writeInt32_writes _ z o).emits s rfl hs, putUint_layout ..⟩,
   ⟨_, (writeInt64_writes _ z o).emits s rfl hs, putUint_layout ..⟩⟩

/-- C02 for 128-bit values: the 16-byte layout of `hi * 2^64 + lo`. -/
theorem C02_layout128 (s : Enc) (hs : NoFail s) (o : Order) (lo hi : Nat) (h1 : lo < 2 ^ 64) :
    (∃ bs, Emits (writeUint128 lo hi o) s bs ∧ Layout o 16 (hi * 2 ^ 64 + lo) bs) ∧
    (∃ bs, Emits (writeInt128 lo hi o) s bs ∧ Layout o 16 (hi * 2 ^ 64 + lo) bs) := by
  have key : Layout o 16 (hi * 2 ^ 64 + lo) (put128 o lo hi) := by
    have hcat : putLE 8 lo ++ putLE 8 hi = putLE 16 (hi * 2 ^ 64 + lo) := by
      have gen : ∀ a b x y : Nat, x < 256 ^ a → putLE a x ++ putLE b y = putLE (a + b) (y * 256 ^ a + x) := by
        intro a b
        induction a with
        | zero => intro x y h; simp at h; subst h; simp [putLE]
        | succ a ih =>
          intro x y h
          rw [show a + 1 + b = (a + b) + 1 by omega]
          simp only [putLE, List.cons_append]
          rw [ih (x / 256) y (by rw [Nat.div_lt_iff_lt_mul (by decide)]; rwa [Nat.pow_succ] at h)]
          have e1 : y * 256 ^ (a + 1) = y * 256 ^ a * 256 := by rw [Nat.pow_succ, Nat.mul_assoc]
          rw [e1]
          generalize y * 256 ^ a = q
          congr 1
          · apply UInt8.toNat_inj.mp
            rw [UInt8.toNat_ofNat', UInt8.toNat_ofNat']; omega
          · congr 1; omega
      exact gen 8 8 lo hi (by omega)
    cases o with
    | le =>
      have := putUint_layout .le 16 (hi * 2 ^ 64 + lo)
      simp only [putUint] at this; simp only [put128, putUint]; rw [hcat]; exact this
    | be =>
      have := putUint_layout .be 16 (hi * 2 ^ 64 + lo)
      simp only [putUint] at this; simp only [put128, putUint]
      rw [← List.reverse_append, hcat]; exact this
  exact ⟨⟨_, (writeUint128_writes _ lo hi o).emits s rfl hs, key⟩, ⟨_, (writeInt128_writes _ lo hi o).emits s rfl hs, key⟩⟩

example : Layout .be 4 0x01020304 [1, 2, 3, 4] := by
  refine ⟨rfl, fun i h => ?_⟩
  match i, h with
  | 0, _ | 1, _ | 2, _ | 3, _ => decide

/-- A read of `n` bytes fails cleanly (an error, nothing moved) exactly when fewer than `n` bytes are left. -/
def CleanShort {α : Type} (r : DM α) (n : Nat) : Prop :=
  ∀ d : Dec, Inside d →
    (left d < n → ∃ x, r d = (.err x, d)) ∧
    (n ≤ left d → ∃ v, r d = (.ok v, { d with pos := d.pos + n }))

theorem cleanShort_of_cases {α : Type} {r : DM α} {n : Nat}
    (h : ∀ d : Dec, d.Ok → (d.rest.length < n ∧ ∃ x, r d = (.err x, d)) ∨ (n ≤ d.rest.length ∧ ∃ v, r d = (.ok v, d.adv n))) :
    CleanShort r n := by
  intro d hd
  rw [left_eq hd]
  rcases h d hd with ⟨h1, h2⟩ | ⟨h1, v, h2⟩
  · exact ⟨fun _ => h2, fun h => absurd h (by omega)⟩
  · exact ⟨fun h => absurd h (by omega), fun _ => ⟨v, h2⟩⟩

theorem CleanShort.map {α β : Type} {r : DM α} {n : Nat} (f : α → β) (h : CleanShort r n) :
    CleanShort (r >>= fun x => pure (f x)) n := by
  intro d hd
  obtain ⟨h1, h2⟩ := h d hd
  refine ⟨fun hl => ?_, fun hl => ?_⟩
  · obtain ⟨x, hx⟩ := h1 hl; exact ⟨x, M.bind_err hx⟩
  · obtain ⟨v, hv⟩ := h2 hl; exact ⟨f v, by rw [M.bind_ok hv]; rfl⟩

theorem byte_clean : CleanShort readByte 1 := cleanShort_of_cases fun d hd => by
  rw [readByte_eq hd]
  cases h : d.rest with
  | nil => left; exact ⟨by simp, _, rfl⟩
  | cons b t => right; exact ⟨by simp, b, rfl⟩

theorem uint_clean {k : Nat} {r : DM Nat} {o : Order}
    (heq : ∀ d : Dec, d.Ok → r d =
      if d.rest.length < k then (.err .notEnough, d)
      else match getUint o k d.rest with
        | .ok v => (.ok v, d.adv k) | .err e => (.err e, d) | .panic => (.panic, d)) : CleanShort r k :=
  cleanShort_of_cases fun d hd => by
    rcases uint_cases heq hd with ⟨h1, h2⟩ | ⟨h1, v, -, -, h2⟩
    · exact .inl ⟨h1, _, h2⟩
    · exact .inr ⟨h1, v, h2⟩

/-- C03 for integers, bytes and booleans. -/
theorem C03_short (o : Order) :
    CleanShort readByte 1 ∧ CleanShort readBool 1 ∧ CleanShort readUint8 1 ∧ CleanShort readInt8 1 ∧
    CleanShort (readUint16 o) 2 ∧ CleanShort (readInt16 o) 2 ∧
    CleanShort (readUint32 o) 4 ∧ CleanShort (readInt32 o) 4 ∧
    CleanShort (readUint64 o) 8 ∧ CleanShort (readInt64 o) 8 ∧
    CleanShort (readUint128 o) 16 ∧ CleanShort (readInt128 o) 16 ∧ CleanShort (readFloat128 o) 16 := by
  have c128 : CleanShort (readUint128 o) 16 := cleanShort_of_cases fun d hd => by
    rcases readUint128_cases hd o with ⟨h1, h2⟩ | ⟨lo, hi, t, -, -, h2, h3⟩
    · exact .inl ⟨h1, _, h2⟩
    · exact .inr ⟨by rw [h3]; simp, _, h2⟩
  have cbool : CleanShort readBool 1 := cleanShort_of_cases fun d hd => by
    rw [readBool_eq hd]
    cases h : d.rest with
    | nil => left; exact ⟨by simp, _, rfl⟩
    | cons b t => right; exact ⟨by simp, _, rfl⟩
  have c16 : CleanShort (readUint16 o) 2 := uint_clean (fun _ h => readUint16_eq h o)
  have c32 : CleanShort (readUint32 o) 4 := uint_clean (fun _ h => readUint32_eq h o)
  have c64 : CleanShort (readUint64 o) 8 := uint_clean (fun _ h => readUint64_eq h o)
  exact ⟨byte_clean, cbool, byte_clean.map _, byte_clean.map _, c16, c16.map _, c32, c32.map _, c64, c64.map _, c128, c128, c128⟩

/-- C03 for floats: as above outside Borsh; in Borsh a NaN bit pattern is refused although the bytes are there. -/
theorem C03_short_float (o : Order) (d : Dec) (hd : Inside d) :
    (left d < 4 → ∃ x, readFloat32 o d = (.err x, d)) ∧
    (4 ≤ left d → (∃ v, readFloat32 o d = (.ok v, { d with pos := d.pos + 4 })) ∨
      d.enc = .borsh ∧ readFloat32 o d = (.err .nan, { d with pos := d.pos + 4 })) ∧
    (left d < 8 → ∃ x, readFloat64 o d = (.err x, d)) ∧
    (8 ≤ left d → (∃ v, readFloat64 o d = (.ok v, { d with pos := d.pos + 8 })) ∨
      d.enc = .borsh ∧ readFloat64 o d = (.err .nan, { d with pos := d.pos + 8 })) := by
  rw [left_eq hd]
  refine ⟨fun h => ?_, fun h => ?_, fun h => ?_, fun h => ?_⟩
  · rw [readFloat32_eq hd, if_pos (by omega)]; exact ⟨_, rfl⟩
  · rw [readFloat32_eq hd, if_neg (by omega)]
    obtain ⟨v, hv, -⟩ := getUint_ok o 4 d.rest (by omega)
    rw [hv]
    by_cases hn : d.enc = .borsh ∧ isNaN32 v = true
    · right; refine ⟨hn.1, ?_⟩; show (if d.enc = .borsh ∧ _ then Res.err Err.nan else _, _) = _; rw [if_pos hn]; rfl
    · left; refine ⟨v, ?_⟩; simp only [hn, if_false]; rfl
  · rw [readFloat64_eq hd, if_pos (by omega)]; exact ⟨_, rfl⟩
  · rw [readFloat64_eq hd, if_neg (by omega)]
    obtain ⟨v, hv, -⟩ := getUint_ok o 8 d.rest (by omega)
    rw [hv]
    by_cases hn : d.enc = .borsh ∧ isNaN64 v = true
    · right; refine ⟨hn.1, ?_⟩; show (if d.enc = .borsh ∧ _ then Res.err Err.nan else _, _) = _; rw [if_pos hn]; rfl
    · left; refine ⟨v, ?_⟩; simp only [hn, if_false]; rfl

example : readUint32 .le (decAt .bin none [1] [2, 3, 4]) = (.err .notEnough, decAt .bin none [1] [2, 3, 4]) := by decide

end Verif.Props
