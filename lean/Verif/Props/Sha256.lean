import Verif.Model.Sha256
import Verif.Props.Sighash
/-! C52 with SHA-256 as the hash function: the length of the hash, and known values. -/
namespace Verif.Props
open Verif Verif.Spec

private theorem round_length (s : List Nat) (kw : Nat × Nat) (h : s.length = 8) : (Sha256.round s kw).length = 8 := by
  match s, h with
  | [_, _, _, _, _, _, _, _], _ => rfl

private theorem rounds_length (l : List (Nat × Nat)) : ∀ s : List Nat, s.length = 8 → (l.foldl Sha256.round s).length = 8 := by
  induction l with
  | nil => exact fun s h => h
  | cons x l ih => exact fun s h => ih _ (round_length s x h)

private theorem blocks_length : ∀ (n : Nat) (s m : List Nat), s.length = 8 → (Sha256.blocks n s m).length = 8 := by
  intro n
  induction n with
  | zero => exact fun s m h => h
  | succ n ih =>
    intro s m h
    refine ih _ _ ?_
    rw [Sha256.block, List.length_zipWith, rounds_length _ _ h, h]
    rfl

private theorem flat4 (l : List Nat) : (l.flatMap (putUint .be 4)).length = 4 * l.length := by
  induction l with
  | nil => rfl
  | cons x l ih => rw [List.flatMap_cons, List.length_append, ih, putUint_length, List.length_cons]; omega

/-- C52: SHA-256 gives 32 bytes, so what is proved for every hash function of 32 bytes holds of the code. -/
theorem C52_hash32 : Hash32 Sha256.sum := by
  intro m
  rw [Sha256.sum, flat4, blocks_length _ _ _ rfl]

/-- The padded message is a whole number of blocks, so none of it is lost. -/
theorem pad_length (m : Bytes) : 64 ∣ (Sha256.pad m).length := by
  simp only [Sha256.pad, List.length_append, List.length_replicate, putUint_length, List.length_cons, List.length_nil]
  omega

/-- C52: the sighashes known to Anchor, whatever the tables for letters outside ASCII: instructions "hello", "serumSwap",
"aldrinV2Swap", "raydiumSwapV2", account "DialectAccount". -/
theorem C52_vectors (U : Uni) (hU : U.Ascii) :
    sighashInstruction Sha256.sum U "hello".toUTF8.toList = .ok [149, 118, 59, 220, 196, 127, 161, 179] ∧
    sighashInstruction Sha256.sum U "serumSwap".toUTF8.toList = .ok [88, 183, 70, 249, 214, 118, 82, 210] ∧
    sighashInstruction Sha256.sum U "aldrinV2Swap".toUTF8.toList = .ok [190, 166, 89, 139, 33, 152, 16, 10] ∧
    sighashInstruction Sha256.sum U "raydiumSwapV2".toUTF8.toList = .ok [69, 227, 98, 93, 237, 202, 223, 140] ∧
    sighashAccount Sha256.sum U "DialectAccount".toUTF8.toList = .ok [157, 38, 120, 189, 93, 204, 119, 18] ∧
    typeIDFromSighash (sighash Sha256.sum "global".toUTF8.toList "hello".toUTF8.toList) =
      [149, 118, 59, 220, 196, 127, 161, 179] := by
  have ha : ∀ s : Bytes, s.all (· < 128) = true → AsciiS s := fun s h => by
    intro b hb
    have := List.all_eq_true.1 h b hb
    simpa using this
  refine ⟨?_, ?_, ?_, ?_, ?_, by decide +kernel⟩
  all_goals first | rw [C52_instruction _ U hU _ (ha _ (by decide +kernel))] | rw [C52_account _ U hU _ (ha _ (by decide +kernel))]
  all_goals decide +kernel

/-- FIPS 180-4 test vectors: the empty message, "abc", one of 56 bytes (two blocks). -/
example : Sha256.sum [] = [0xe3, 0xb0, 0xc4, 0x42, 0x98, 0xfc, 0x1c, 0x14, 0x9a, 0xfb, 0xf4, 0xc8, 0x99, 0x6f, 0xb9, 0x24,
    0x27, 0xae, 0x41, 0xe4, 0x64, 0x9b, 0x93, 0x4c, 0xa4, 0x95, 0x99, 0x1b, 0x78, 0x52, 0xb8, 0x55] ∧
  Sha256.sum "abc".toUTF8.toList = [0xba, 0x78, 0x16, 0xbf, 0x8f, 0x01, 0xcf, 0xea, 0x41, 0x41, 0x40, 0xde, 0x5d, 0xae, 0x22, 0x23,
    0xb0, 0x03, 0x61, 0xa3, 0x96, 0x17, 0x7a, 0x9c, 0xb4, 0x10, 0xff, 0x61, 0xf2, 0x00, 0x15, 0xad] ∧
  Sha256.sum "abcdbcdecdefdefgefghfghighijhijkijkljklmklmnlmnomnopnopq".toUTF8.toList = [0x24, 0x8d, 0x6a, 0x61, 0xd2, 0x06, 0x38, 0xb8,
    0xe5, 0xc0, 0x26, 0x93, 0x0c, 0x3e, 0x60, 0x39, 0xa3, 0x3c, 0xe4, 0x59, 0x64, 0xff, 0x21, 0x67, 0xf6, 0xec, 0xed, 0xd4, 0x19, 0xdb,
    0x06, 0xc1] := by
  decide +kernel

/-- The hypothesis of C46 for the Anchor encoding is met by SHA-256 and two instruction names. -/
example : IDsSuffice Sha256.sum .anchor [⟨"hello".toUTF8.toList, some .bool⟩, ⟨"world".toUTF8.toList, some .bool⟩] :=
  ⟨C52_hash32, by decide +kernel⟩

end Verif.Props
