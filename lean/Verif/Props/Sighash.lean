import Verif.Model.Sighash
import Verif.Proofs.Variants
import Verif.Props.Cases
/-! Property C52: Anchor sighashes, for any hash function of 32 bytes. -/
namespace Verif.Props
open Verif Verif.Spec

/-- `H` stands for SHA-256. -/
def Hash32 (H : Bytes → Bytes) : Prop := ∀ x, (H x).length = 32

/-- C52: eight bytes, and they begin the hash of `ns:name`. -/
theorem C52_prefix (H : Bytes → Bytes) (hH : Hash32 H) (ns name : Bytes) :
    (sighash H ns name).length = 8 ∧ ∃ rest, H (ns ++ 58 :: name) = sighash H ns name ++ rest := by
  have e : ns ++ 58 :: name = ns ++ [58] ++ name := by simp
  refine ⟨?_, (H (ns ++ [58] ++ name)).drop 8, ?_⟩
  · rw [sighash, List.length_take, hH]; rfl
  · rw [e, sighash, List.take_append_drop]

/-- C52: it depends on the string `ns:name` only. -/
theorem C52_string (H : Bytes → Bytes) (ns name ns' name' : Bytes) (h : ns ++ 58 :: name = ns' ++ 58 :: name') :
    sighash H ns name = sighash H ns' name' := by
  have e : ns ++ [58] ++ name = ns' ++ [58] ++ name' := by simpa using h
  rw [sighash, sighash, e]

/-- C52: `SighashTypeID` has the same bytes. -/
theorem C52_typeID (H : Bytes → Bytes) (hH : Hash32 H) (ns name : Bytes) :
    sighashTypeID H ns name = sighash H ns name :=
  typeIDFromBytes_full (C52_prefix H hH ns name).1

/-- C52: `SighashInstruction` is the sighash of the snake-case name in namespace "global". -/
theorem C52_instruction (H : Bytes → Bytes) (U : Uni) (hU : U.Ascii) (name : Bytes) (hs : AsciiS name) :
    sighashInstruction H U name = .ok (sighash H "global".toUTF8.toList (snake name)) := by
  have e : "global".toUTF8.toList = globalNs := by decide +kernel
  rw [sighashInstruction, toSnakeForSighash, snake_eq hU hs, e]

/-- C52: `SighashAccount` is the sighash of the Pascal-case name in namespace "account". -/
theorem C52_account (H : Bytes → Bytes) (U : Uni) (hU : U.Ascii) (name : Bytes) (hs : AsciiS name) :
    sighashAccount H U name = .ok (sighash H "account".toUTF8.toList (pascal name)) := by
  have e : "account".toUTF8.toList = accountNs := by decide +kernel
  rw [sighashAccount, pascal_eq hU hs, e]

/-- C52: two spellings with the same snake case have the same instruction sighash, whatever the strings; for ASCII
strings the account sighashes agree as well. -/
theorem C52_respelling (H : Bytes → Bytes) (U : Uni) (a b : Bytes) (h : toSnakeForSighash U a = toSnakeForSighash U b) :
    sighashInstruction H U a = sighashInstruction H U b ∧
    (U.Ascii → AsciiS a → AsciiS b → sighashAccount H U a = sighashAccount H U b) := by
  refine ⟨by rw [sighashInstruction, h, sighashInstruction], fun hU ha hb => ?_⟩
  rw [sighashAccount, sighashAccount, C63_same U hU a b ha hb h]

/-- "initializeMint", "InitializeMint", "initialize_mint" and "INITIALIZE MINT" are spellings of the same name. -/
example : toSnakeForSighash asciiUni "initializeMint".toUTF8.toList = .ok "initialize_mint".toUTF8.toList ∧
    toSnakeForSighash asciiUni "InitializeMint".toUTF8.toList = .ok "initialize_mint".toUTF8.toList ∧
    toSnakeForSighash asciiUni "initialize_mint".toUTF8.toList = .ok "initialize_mint".toUTF8.toList ∧
    toSnakeForSighash asciiUni "INITIALIZE MINT".toUTF8.toList = .ok "initialize_mint".toUTF8.toList := by
  decide +kernel

/-- C52: the snake-case form itself has the sighash of the name. -/
theorem C52_snake_form (H : Bytes → Bytes) (U : Uni) (hU : U.Ascii) (s : Bytes) (hs : AsciiS s) (t : Bytes)
    (ht : toSnakeForSighash U s = .ok t) : sighashInstruction H U t = sighashInstruction H U s := by
  refine (C52_respelling H U t s ?_).1
  rw [ht]
  exact C50_idempotent U hU s hs t ht

end Verif.Props
