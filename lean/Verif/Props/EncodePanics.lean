import Verif.Proofs.Quiet
import Verif.Props.RoundTrip
/-!
# C73: when `Encode` panics

Full statement: `Encode` returns (with or without an error) for every value of every type and every writer.  That is
false; the three `C73_violated` theorems give families of values on which it panics, `C73_no_panic_partial` proves it for
all values outside such families (`Spec.Calm`).
-/
set_option linter.unusedSimpArgs false
namespace Verif.Props
open Spec

/-- C73, partial: on calm values `Encode` does not panic, whatever the writer does, and later calls find the same
encoding. -/
theorem C73_no_panic_partial {e : Encoding} (he : e.valid = true) (t : Ty) (v : Val) (h : Calm e t none v) (s : Enc)
    (hs : s.enc = e) : (encode t v s).1 ≠ .panic ∧ (encode t v s).2.enc = e := by
  unfold encode
  simp only [M.bind_apply, M.get_apply, hs]
  rw [if_neg (by rintro rfl; cases he)]
  simp only [setCurE, M.bind_apply, M.modify_apply]
  have := encCore_q he t {} v h { s with cur := some .le } hs (by simp)
  exact ⟨this.1, this.2.1⟩

/-- C73, partial: hence the `Marshal` functions return. -/
theorem C73_marshal_partial {e : Encoding} (he : e.valid = true) (t : Ty) (v : Val) (h : Calm e t none v) :
    (marshal e t v).1 ≠ .panic := (C73_no_panic_partial he t v h (Enc.new e) rfl).1

/-- The round-trip example is calm. -/
example : Calm .borsh (rtTy .le) none rtVal ∧ Calm .bin (rtTy .be) none rtVal := by
  simp [Calm, rtTy, rtVal, CalmFields, Fields.isEnum, lenFits, orderedKey, counter, Ty.kind, Ty.uintKind, isUint,
    LibCalm, absent, lookupSize, Ty.isZero, nanFree]

/-- So are values that `Encode` refuses: a NaN in Borsh, an `int` field. -/
example : Calm .borsh (.slice .f64) none (.seq (some [.float 0x7ff8000000000001])) ∧
    (marshal .borsh (.slice .f64) (.seq (some [.float 0x7ff8000000000001]))).1 = .err .nan ∧
    Calm .bin (.struct (.cons { name := [65] } .plainInt .nil)) none (.struct [.int 1]) ∧
    (marshal .bin (.struct (.cons { name := [65] } .plainInt .nil)) (.struct [.int 1])).1 = .err .unsupported := by
  refine ⟨?_, by decide +kernel, ?_, by decide +kernel⟩
  · simp [Calm, lenFits, Ty.uintKind, Ty.kind]
  · simp [Calm, CalmFields, Fields.isEnum]

/-- C73 fails: Borsh maps with two or more entries and keys that `vComp` does not know, such as defined types of 64-bit
integers, booleans and arrays. -/
theorem C73_violated_keys (k t : Ty) (h : orderedKey k = false) (m : List (Val × Val)) (hm : 2 ≤ m.length) :
    (marshal .borsh (.map k t) (.map (some m))).1 = .panic := by
  unfold marshal encode
  simp only [M.bind_apply, M.get_apply, Enc.new, setCurE, M.modify_apply]
  rw [if_neg (by simp)]
  simp only [M.bind_apply, encCore, Option.getD_some, mapEntries, sortedEntries, M.modify_apply]
  rw [if_pos trivial, if_neg (by omega), if_neg (by rw [sortable_eq, h]; simp)]
  rfl

example : orderedKey (.uint .w64 true) = false ∧ orderedKey .bool = false ∧ orderedKey (.uint .w64 false) = true ∧
    (marshal .borsh (.map (.uint .w64 true) .bool) (.map (some [(.uint 1, .bool true), (.uint 2, .bool true)]))).1 = .panic := by
  refine ⟨rfl, rfl, rfl, ?_⟩
  exact C73_violated_keys _ _ rfl _ (by simp)

/-- C73 fails: a map with a NaN as key in Bin and CompactU16 (the value of such a key cannot be looked up). -/
theorem C73_violated_nan {e : Encoding} (he : e.valid = true) (hb : e ≠ .borsh) (x : Nat) (hx : x < 2 ^ 64)
    (hn : isNaN64 x = true) (t : Ty) (v : Val) :
    (marshal e (.map .f64 t) (.map (some [(.float x, v)]))).1 = .panic := by
  unfold marshal encode
  simp only [M.bind_apply, M.get_apply, Enc.new, setCurE, M.modify_apply]
  rw [if_neg (by rintro rfl; cases he)]
  simp only [encCore, mapEntries, if_neg hb, Option.getD_some, M.bind_apply, M.pure_apply, M.modify_apply]
  obtain ⟨cs, c, -, h1⟩ := writeSeqLen_w he 1 (by cases e <;> simp [maxLen] at he ⊢; cases he) { Enc.new e with cur := some .le } rfl (fun _ _ => rfl)
  simp only [Enc.new] at h1
  simp only [List.length_singleton, h1, forEachM, M.bind_apply, setCurE, M.modify_apply]
  obtain ⟨cs', c', -, h2⟩ := encCore_w he .f64 {} (.float x) (by
    simp only [Encodable]; exact ⟨hx, fun h => absurd h hb⟩)
    { Enc.left { Enc.new e with cur := some .le } cs c with cur := some .le } rfl (fun _ _ => rfl) rfl
  simp only [Enc.new, encCore] at h2
  simp only [h2, Ty.found, hn]
  rfl

/-- C73 fails: a nil pointer to a library type in Bin and CompactU16. -/
theorem C73_violated_nil {e : Encoding} (he : e.valid = true) (hb : e ≠ .borsh) (l : Lib) (hl : l ≠ .emptyVariant) :
    (marshal e (.ptr (.lib l)) (.ptr none)).1 = .panic := by
  unfold marshal encode
  simp only [M.bind_apply, M.get_apply, Enc.new, setCurE, M.modify_apply]
  rw [if_neg (by rintro rfl; cases he)]
  simp only [M.bind_apply, encCore, Ty.asLib, M.modify_apply]
  rw [if_neg (by simp [hb, hl])]
  rfl

/-- C73 fails: a `sizeof` field that announces more elements than the slice has. -/
theorem C73_violated_sizeof {e : Encoding} (he : e.valid = true) (n : Nat) (hn : n < 256) (b : List Val) (hb : b.length < n) :
    (marshal e (.struct (.cons { name := [78], tag := { sizeOf := [76] } } (.uint .w8 false)
      (.cons { name := [76] } (.slice (.uint .w8 false)) .nil))) (.struct [.uint n, .seq (some b)])).1 = .panic := by
  have h1 : toSigned 64 n = n := by unfold toSigned; rw [if_pos (by omega)]
  unfold marshal encode
  simp only [M.bind_apply, M.get_apply, Enc.new, setCurE, M.modify_apply]
  rw [if_neg (by rintro rfl; cases he)]
  simp only [M.bind_apply, M.modify_apply, encCore, encStruct, Fields.isEnum]
  rw [if_neg (by simp)]
  have h2 : ¬ ((n : Int) < 0) := by omega
  simp [encFields, recordSize, sizeofVal, Ty.kind, h1, h2, M.bind_apply, encFlags, fieldOpt, encCore, encPlain, encScalar,
    writeByte, toWriter, okSink, setCurE, lookupSize, Ty.uintKind, writeUints, hb, M.panic, M.lift]

end Verif.Props
