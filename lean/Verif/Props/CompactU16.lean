import Verif.Proofs.Bridge
/-! Properties C04-C07: compact-u16. -/
namespace Verif.Props
open Verif Verif.Spec

/-- C04 on the functions of compact-u16.go: for every length 0..65535 and all bytes already in the buffer and after. -/
theorem C04_compact_roundtrip (n : Nat) (h : n ≤ 65535) (buf rest : Bytes) :
    ∃ bs : Bytes, encodeCompactU16Length buf n = (.ok (), buf ++ bs) ∧
      decodeCompactU16 (bs ++ rest) = .ok (n, bs.length) := by
  refine ⟨Spec.compact n, ?_, (decodeCompactU16_ok_iff _ _ _).2 ⟨h, rfl, rest, rfl⟩⟩
  rw [encodeCompactU16Length_eq, if_pos (by omega)]; simp

/-- C04 on encoder and decoder. -/
theorem C04_compact_roundtrip_coder (e : Encoding) (n : Nat) (h : n ≤ 65535) :
    ∃ k, 1 ≤ k ∧ k ≤ 3 ∧ RoundTrip e (writeCompactU16 n) readCompactU16 k n := by
  refine ⟨(Spec.compact n).length, ?_, ?_, roundTrip_mk (writeCompactU16_writes e n h) (readCompactU16_reads e n h) rfl⟩ <;>
  · rw [Spec.compact_length]; repeat' split
    all_goals decide

example : decodeCompactU16 ([0xff, 0x01] ++ [5, 6]) = .ok (255, 2) := by decide

/-- C05: errors exactly outside 0..65535 (buffer untouched), otherwise appends 1, 2 or 3 bytes. -/
theorem C05_compact_range (buf : Bytes) (ln : Int) :
    ((ln < 0 ∨ ln > 65535) → ∃ x, encodeCompactU16Length buf ln = (.err x, buf)) ∧
    (0 ≤ ln → ln ≤ 65535 → ∃ bs : Bytes, encodeCompactU16Length buf ln = (.ok (), buf ++ bs) ∧
      bs.length = if ln < 128 then 1 else if ln < 16384 then 2 else 3) := by
  rw [encodeCompactU16Length_eq]
  refine ⟨fun h => ⟨_, by rw [if_neg (by omega)]⟩, fun h0 h1 => ⟨Spec.compact ln.toNat, by rw [if_pos ⟨h0, h1⟩], ?_⟩⟩
  rw [Spec.compact_length]
  have e1 : (ln.toNat < 128) ↔ (ln < 128) := by omega
  have e2 : (ln.toNat < 16384) ↔ (ln < 16384) := by omega
  simp only [e1, e2]

example : encodeCompactU16Length [7] 65536 = (.err .lenRange, [7]) ∧ encodeCompactU16Length [7] (-1) = (.err .lenRange, [7]) ∧
    encodeCompactU16Length [7] 16384 = (.ok (), [7, 0x80, 0x80, 1]) := by decide

/-- C06: acceptance is exactly "starts with the canonical form of some length ≤ 65535" (`Spec.compact`, written from the
format description); the decoder never panics. -/
theorem C06_compact_canonical (b : Bytes) (n k : Nat) :
    decodeCompactU16 b = .ok (n, k) ↔ n ≤ 65535 ∧ k = (Spec.compact n).length ∧ Spec.compact n <+: b := by
  rw [decodeCompactU16_ok_iff]
  constructor
  · rintro ⟨h1, h2, t, rfl⟩; exact ⟨h1, h2, t, rfl⟩
  · rintro ⟨h1, h2, t, rfl⟩; exact ⟨h1, h2, t, rfl⟩

/-- C06: no two different accepted encodings denote the same length, and none decodes with bytes beyond its size. -/
theorem C06_compact_unique (b b' : Bytes) (n k k' : Nat) (h : decodeCompactU16 b = .ok (n, k))
    (h' : decodeCompactU16 b' = .ok (n, k')) : k = k' ∧ b.take k = b'.take k' := by
  obtain ⟨-, rfl, t, rfl⟩ := (decodeCompactU16_ok_iff _ _ _).1 h
  obtain ⟨-, rfl, t', rfl⟩ := (decodeCompactU16_ok_iff _ _ _).1 h'
  simp

/-- C06: everything else is an error. -/
theorem C06_compact_total (b : Bytes) : (∃ n k, decodeCompactU16 b = .ok (n, k)) ∨ ∃ x, decodeCompactU16 b = .err x := by
  cases h : decodeCompactU16 b with
  | ok p => exact .inl ⟨p.1, p.2, rfl⟩
  | err x => exact .inr ⟨x, rfl⟩
  | panic => exact absurd h (decodeCompactU16_ne_panic b)

example : decodeCompactU16 [0x80, 0x00] = .err .alias ∧ decodeCompactU16 [0x80, 0x80, 0x80, 0] = .err .continues ∧
    decodeCompactU16 [0xff, 0xff, 0x04] = .err .badCompact ∧ decodeCompactU16 [0x80] = .err .eof := by decide

theorem readerLoop_eq (fuel : Nat) : ∀ (ln nth : Nat) (b : Bytes),
    (decodeCompactReaderLoop ln nth fuel b).1 = decodeCompactLoop ln nth fuel b ∧
    ∀ l k, decodeCompactLoop ln nth fuel b = .ok (l, k) →
      nth ≤ k ∧ (decodeCompactReaderLoop ln nth fuel b).2 = b.drop (k - nth) := by
  induction fuel with
  | zero =>
    intro ln nth b
    refine ⟨rfl, ?_⟩
    intro l k h
    simp [decodeCompactLoop] at h
    obtain ⟨rfl, rfl⟩ := h
    simp [decodeCompactReaderLoop]
  | succ f ih =>
    intro ln nth b
    cases b with
    | nil => simp [decodeCompactReaderLoop, decodeCompactLoop, readerReadByte, M.bind_apply]
    | cons x t =>
      simp only [decodeCompactReaderLoop, decodeCompactLoop, readerReadByte, M.bind_apply]
      by_cases h1 : x = 0 ∧ nth ≠ 0
      · simp [h1]
      rw [if_neg h1, if_neg h1]
      by_cases h2 : nth = 2 ∧ x &&& 0x80 ≠ 0
      · rw [if_pos h2, if_pos h2]; simp
      rw [if_neg h2, if_neg h2]
      by_cases h3 : x &&& 0x80 = 0
      · rw [if_pos h3, if_pos h3]
        refine ⟨rfl, ?_⟩
        intro l k h
        simp at h
        obtain ⟨-, rfl⟩ := h
        exact ⟨by omega, by simp⟩
      · rw [if_neg h3, if_neg h3]
        obtain ⟨i1, i2⟩ := ih (ln ||| ((x &&& 0x7f).toNat <<< (nth * 7))) (nth + 1) t
        refine ⟨i1, ?_⟩
        intro l k h
        obtain ⟨hk, hs⟩ := i2 l k h
        refine ⟨by omega, ?_⟩
        rw [hs, show k - nth = (k - (nth + 1)) + 1 by omega, List.drop_succ_cons]

/-- C07: the stream decoder returns the same result as the slice decoder, and consumes the reported size. -/
theorem C07_compact_stream (b : Bytes) :
    (∀ n k, decodeCompactU16 b = .ok (n, k) → decodeCompactFromReader b = (.ok n, b.drop k)) ∧
    (∀ x, decodeCompactU16 b = .err x → (decodeCompactFromReader b).1 = .err x) ∧
    (∀ n, (decodeCompactFromReader b).1 = .ok n → ∃ k, decodeCompactU16 b = .ok (n, k)) := by
  obtain ⟨h1, h2⟩ := readerLoop_eq 3 0 0 b
  have main : decodeCompactFromReader b =
      match decodeCompactU16 b with
      | .ok (n, k) => (.ok n, b.drop k)
      | .err x => (.err x, (decodeCompactFromReader b).2)
      | .panic => (.panic, (decodeCompactFromReader b).2) := by
    unfold decodeCompactFromReader decodeCompactU16
    rw [M.bind_apply]
    cases hm : decodeCompactReaderLoop 0 0 3 b with
    | mk res st =>
      rw [hm] at h1 h2
      simp only [] at h1 h2
      rw [← h1]
      cases res with
      | ok p =>
        obtain ⟨l, k⟩ := p
        obtain ⟨-, hst⟩ := h2 l k h1.symm
        simp only []
        by_cases c1 : k = 0 ∨ k > 3
        · simp [c1]
        · rw [if_neg c1, if_neg c1]
          by_cases c2 : l > 65535
          · simp [c2]
          · rw [if_neg c2, if_neg c2]; simp [hst]
      | err x => rfl
      | panic => rfl
  refine ⟨fun n k h => by rw [main, h], fun x h => by rw [main, h], fun n h => ?_⟩
  rw [main] at h
  cases hd : decodeCompactU16 b with
  | ok p => rw [hd] at h; simp at h; exact ⟨p.2, by rw [← h]⟩
  | err x => rw [hd] at h; simp at h
  | panic => rw [hd] at h; simp at h

example : decodeCompactFromReader [0x80, 0x01, 9] = (.ok 128, [9]) := by decide

end Verif.Props
