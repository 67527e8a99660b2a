import Verif.Model.Arguments
import Verif.Spec.Calls
import Verif.Proofs.ValEq
/-! Properties C81 and C82: the arguments of `Encode`, `Decode` and the constructors. -/
namespace Verif.Props
open Spec

/-- C81, the part that holds: `Decode(x)` for an `x` that is not a pointer (`Decode(nil)` included) returns an
`InvalidDecoderError` and reads nothing; `Decode(&x)` fills `x`; `Encode(nil)` succeeds and writes nothing.
Missing: nil pointers. -/
theorem C81_arguments_partial (d : Dec) (s : Enc) (hd : d.enc.valid = true) (hs : s.enc.valid = true) :
    decodeArg .nonPtr d = (.err .invalidDecoder, d) ∧
    (∀ t old, decodeArg (.addr t old) d = decode t old d) ∧
    (encodeArg none s).1 = .ok () ∧ (encodeArg none s).2.out = s.out ∧ (encodeArg none s).2.written = s.written ∧
    (∀ t v, encodeArg (some (t, v)) s = encode t v s) := by
  have h1 : d.enc ≠ .other := by intro h; rw [h] at hd; cases hd
  have h2 : s.enc ≠ .other := by intro h; rw [h] at hs; cases hs
  simp only [decodeArg, encodeArg, M.bind_apply, M.get_apply, if_neg h1, if_neg h2, setCurE, M.modify_apply]
  exact ⟨rfl, fun _ _ => trivial, trivial, rfl, rfl, fun _ _ => trivial⟩

/-- C81 is false of the code for nil pointers: error.go:19-20 announces an `InvalidDecoderError`, with a message for nil
pointers (error.go:33), but only the kind of the argument is tested (decoder_bin.go:31, decoder_borsh.go:31,
decoder_compact-u16.go:30) and `indirect` panics (decoder.go:744). -/
theorem C81_violated (d : Dec) : (decodeArg .nilPtr d).1 = .panic := by
  simp only [decodeArg, M.bind_apply, M.get_apply]
  split <;> rfl

example : decodeArg .nonPtr (Dec.new [1, 2] .borsh) = (.err .invalidDecoder, Dec.new [1, 2] .borsh) ∧
    (decodeArg (.addr (.uint .w8 false) (.uint 0)) (Dec.new [1, 2] .borsh)).1 = .ok (.uint 1) := by decide +kernel

/-- C82: the integers 0, 1, 2 select an encoding with a name of its own, and the three `Is…` methods single it out; every
other integer has the empty name. -/
theorem C82_names (n m : Int) :
    ((Encoding.ofInt n).isBin = true ↔ n = 0) ∧ ((Encoding.ofInt n).isCompactU16 = true ↔ n = 1) ∧
    ((Encoding.ofInt n).isBorsh = true ↔ n = 2) ∧
    ((Encoding.ofInt n).toString = [] ↔ n < 0 ∨ 2 < n) ∧
    ((Encoding.ofInt n).toString = (Encoding.ofInt m).toString ↔ n = m ∨ ((n < 0 ∨ 2 < n) ∧ (m < 0 ∨ 2 < m))) := by
  have cases4 : ∀ n : Int, (n = 0 ∧ Encoding.ofInt n = .bin) ∨ (n = 1 ∧ Encoding.ofInt n = .compactU16) ∨
      (n = 2 ∧ Encoding.ofInt n = .borsh) ∨ ((n < 0 ∨ 2 < n) ∧ Encoding.ofInt n = .other) := by
    intro n
    unfold Encoding.ofInt
    by_cases h0 : n = 0
    · simp [h0]
    · by_cases h1 : n = 1
      · simp [h1]
      · by_cases h2 : n = 2
        · simp [h2]
        · right; right; right
          rw [if_neg h0, if_neg h1, if_neg h2]; exact ⟨by omega, rfl⟩
  have hb : Encoding.bin.toString ≠ [] ∧ Encoding.compactU16.toString ≠ [] ∧ Encoding.borsh.toString ≠ [] ∧
      Encoding.bin.toString ≠ Encoding.compactU16.toString ∧ Encoding.bin.toString ≠ Encoding.borsh.toString ∧
      Encoding.compactU16.toString ≠ Encoding.borsh.toString ∧ Encoding.other.toString = [] := by decide +kernel
  obtain ⟨b1, b2, b3, b4, b5, b6, b7⟩ := hb
  rcases cases4 n with ⟨rfl, hn⟩ | ⟨rfl, hn⟩ | ⟨rfl, hn⟩ | ⟨hr, hn⟩ <;>
  rcases cases4 m with ⟨rfl, hm⟩ | ⟨rfl, hm⟩ | ⟨rfl, hm⟩ | ⟨hr', hm⟩ <;>
  simp only [hn, hm, Encoding.isBin, Encoding.isCompactU16, Encoding.isBorsh, b1, b2, b3, b7, b4, b5, b6, b4.symm, b5.symm, b6.symm,
    b1.symm, b2.symm, b3.symm] <;>
  simp <;> omega

/-- C82: the constructors accept exactly the encodings 0, 1, 2 and panic on every other integer; the decoder starts at the
first byte, the encoder has written nothing. -/
theorem C82_constructors (n : Int) (data : Bytes) (sink : Sink) :
    (0 ≤ n ∧ n ≤ 2 → (∃ d, Dec.newWithEncoding data (.ofInt n) = .ok d ∧ d = decAt (.ofInt n) none [] data) ∧
      ∃ s, Enc.newWithEncoding (.ofInt n) sink = .ok s ∧ s.out = [] ∧ s.written = 0 ∧ s.enc = .ofInt n) ∧
    (n < 0 ∨ 2 < n → Dec.newWithEncoding data (.ofInt n) = .panic ∧ Enc.newWithEncoding (.ofInt n) sink = .panic) := by
  refine ⟨fun h => ?_, fun h => ?_⟩
  · have : (Encoding.ofInt n).valid = true := by
      rcases (show n = 0 ∨ n = 1 ∨ n = 2 by omega) with rfl | rfl | rfl <;> rfl
    simp only [Dec.newWithEncoding, Enc.newWithEncoding, this, if_true]
    exact ⟨⟨_, rfl, rfl⟩, _, rfl, rfl, rfl, rfl⟩
  · have : Encoding.ofInt n = .other := by
      unfold Encoding.ofInt
      rw [if_neg (by omega), if_neg (by omega), if_neg (by omega)]
    rw [this]
    exact ⟨rfl, rfl⟩

/-- C82: after `SetEncoding` with any other integer, `Decode` and `ReadLength` panic on every argument and input, and an
`Encoder` with such an encoding cannot exist (above). `SetEncoding` changes nothing else. -/
theorem C82_setEncoding (n : Int) (d : Dec) :
    (d.setEncoding (.ofInt n)).pos = d.pos ∧ (d.setEncoding (.ofInt n)).data = d.data ∧
    (d.setEncoding (.ofInt n)).enc = .ofInt n ∧
    (n < 0 ∨ 2 < n → (∀ a, (decodeArg a (d.setEncoding (.ofInt n))).1 = .panic) ∧
      (readLength (d.setEncoding (.ofInt n))).1 = .panic) := by
  refine ⟨rfl, rfl, rfl, fun h => ?_⟩
  have : Encoding.ofInt n = .other := by
    unfold Encoding.ofInt
    rw [if_neg (by omega), if_neg (by omega), if_neg (by omega)]
  rw [this]
  exact ⟨fun a => rfl, rfl⟩

example : Encoding.ofInt 2 = .borsh ∧ (Encoding.ofInt 1).toString = "CompactU16".toUTF8.toList ∧
    Encoding.ofInt 7 = .other := by decide +kernel

end Verif.Props
