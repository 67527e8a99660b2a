import Verif.Proofs.Utf8
import Verif.Proofs.Bridge
/-! Property C67: the repair done by `SafeReadUTF8String`. -/
namespace Verif.Props
open Verif Verif.Spec

/-- C67: whatever bytes are written as a string, `SafeReadUTF8String` reads them, keeps every encoded scalar value,
replaces every other byte by U+FFFD, and consumes exactly what was written. -/
theorem C67_repair (e : Encoding) (he : e = .bin ∨ e = .borsh ∨ e = .compactU16) (s : Bytes) (hs : s.length < 2 ^ 31)
    (hc : e = .compactU16 → s.length ≤ 65535) :
    ∃ n t, Repaired s t ∧ RoundTrip e (writeString s) safeReadUTF8String n t := by
  have hv : e.valid = true := by rcases he with rfl | rfl | rfl <;> rfl
  have hw : s.length ≤ lenMaxW e := by
    rcases he with rfl | rfl | rfl
    · simp only [lenMaxW]; omega
    · simp only [lenMaxW]; omega
    · exact hc rfl
  have hr : s.length ≤ lenMax e := by
    rcases he with rfl | rfl | rfl
    · simp only [lenMax]; omega
    · simp only [lenMax]; omega
    · exact hc rfl
  exact ⟨_, fixUtf8 s, fixUtf8_repaired s, roundTrip_mk (writeBytes_writes e hv s hw)
    ((readByteSlice_reads e hv s hr).bind_pure (f := fixUtf8)) rfl⟩

/-- C67: on any input, when it succeeds the result is valid UTF-8 and is the repair of what `ReadString` returns there. -/
theorem C67_valid (d : Dec) (t : Bytes) (h : (safeReadUTF8String d).1 = .ok t) :
    Utf8 t ∧ ∃ s, (readString d).1 = .ok s ∧ Repaired s t ∧ (safeReadUTF8String d).2 = (readString d).2 := by
  have hb : safeReadUTF8String d = (readString >>= fun s => (pure (fixUtf8 s) : DM Bytes)) d := rfl
  rw [hb, M.bind_apply] at h
  rw [hb, M.bind_apply]
  cases hr : readString d with
  | mk r d' =>
    rw [hr] at h
    cases r with
    | ok s =>
      simp only [M.pure_apply] at h ⊢
      cases h
      exact ⟨(fixUtf8_repaired s).utf8, s, rfl, fixUtf8_repaired s, trivial⟩
    | err x => simp at h
    | panic => simp at h

/-- C67: there is exactly one repair; it is valid UTF-8, and it changes nothing exactly when nothing was wrong. -/
theorem C67_unique (s t : Bytes) (h : Repaired s t) : (∀ u, Repaired s u → u = t) ∧ Utf8 t ∧ (t = s ↔ Utf8 s) := by
  refine ⟨fun u hu => hu.unique h, h.utf8, ?_⟩
  have : t = fixUtf8 s := h.unique (fixUtf8_repaired s)
  rw [this, fixUtf8_eq_self]

/-- C67: reading back a repaired string changes nothing more. -/
theorem C67_idempotent (s t u : Bytes) (h : Repaired s t) (h' : Repaired t u) : u = t :=
  (C67_unique t u h').2.2.mpr h.utf8

-- "é" in Latin-1 between two letters, a truncated three-byte sequence, an encoded surrogate, "€" intact
example : fixUtf8 [97, 0xE9, 98] = [97, 0xEF, 0xBF, 0xBD, 98] := by decide +kernel
example : fixUtf8 [0xE2, 0x82] = [0xEF, 0xBF, 0xBD, 0xEF, 0xBF, 0xBD] := by decide +kernel
example : fixUtf8 [0xED, 0xA0, 0x80] = [0xEF, 0xBF, 0xBD, 0xEF, 0xBF, 0xBD, 0xEF, 0xBF, 0xBD] := by decide +kernel
example : Utf8 [0xE2, 0x82, 0xAC, 33] :=
  ⟨[0x20AC, 33], by simp [Scalar], by decide +kernel⟩
example : ¬ Utf8 [0xC0, 0x80] := fun h => absurd ((fixUtf8_eq_self _).mpr h) (by decide +kernel)

end Verif.Props
