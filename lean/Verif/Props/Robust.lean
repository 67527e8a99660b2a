import Verif.Props.RoundTrip
import Verif.Proofs.DecodeStable
import Verif.Proofs.DecodeFresh
/-!
# C32–C36: decoding truncated, hostile, extended inputs, and into used variables
-/
set_option linter.unusedSimpArgs false
namespace Verif.Props
open Spec

/-! ### C32 -/

/-- C32: a proper prefix of an encoding is refused with an error (not a value, not a panic). -/
theorem C32_truncated {e : Encoding} (he : e.valid = true) (t : Ty) (v : Val) (h : Supported e t v)
    (ht : noExtension t = true) (b lost : Bytes) (hb : (marshal e t v).2 = b ++ lost) (hl : lost ≠ []) :
    ∃ x, unmarshal e t t.zero b = .err x := by
  rw [marshal_wire he t v h.1] at hb
  simp only [] at hb
  have hx : Ext lost (Dec.new b e) (Dec.new (b ++ lost) e) := ⟨Dec.new_ok _ _, Dec.new_ok _ _, by simp, rfl, rfl⟩
  obtain ⟨c, hc⟩ := decode_r he t v h.1 h.2 (Dec.new (b ++ lost) e) [] rfl (Dec.new_ok _ _) (by rw [Dec.new_rest, hb]; simp)
  obtain ⟨s1, s2⟩ := decode_stab he t ht t.zero lost _ _ hx rfl
  have hnp := s2 _ _ hc
  unfold unmarshal
  cases hr : decode t t.zero (Dec.new b e) with
  | mk res d1' =>
    rw [hr] at hnp
    cases res with
    | err x => exact ⟨x, rfl⟩
    | panic => exact absurd rfl hnp
    | ok a =>
      exfalso
      obtain ⟨d2', hr2, hx2, hp2, -⟩ := s1 a d1' hr
      rw [hc] at hr2
      simp only [Prod.mk.injEq, Res.ok.injEq] at hr2
      have e1 : (d1'.rest ++ lost).length = d2'.rest.length := by rw [hx2.rest]
      rw [← hr2.2, Dec.to_rest, Dec.adv_rest (Dec.new_ok _ _), Dec.new_rest, List.length_drop, hb] at e1
      rw [List.length_append] at e1
      have : lost.length = 0 := by omega
      exact hl (List.length_eq_zero_iff.mp this)

/-- A struct with an optional pointer and a signed `sizeof` pair. -/
def cutTy : Ty := .struct <|
  .cons { name := [65] } (.uint .w16 false) <|
  .cons { name := [80], tag := { option := true } } (.ptr (.int .w8 false)) <|
  .cons { name := [78], tag := { sizeOf := [76] } } (.int .w8 false) <|
  .cons { name := [76] } (.slice (.uint .w16 false)) .nil

def cutVal : Val := .struct [.uint 513, .ptr (some (.int (-2))), .int 1, .seq (some [.uint 300])]

example : Supported .borsh cutTy cutVal ∧ noExtension cutTy = true := by
  refine ⟨⟨?_, ?_⟩, rfl⟩
  · simp [cutTy, cutVal, Encodable, EncodableFields, announce, sizeofVal, Ty.kind, Ty.uintKind, lookupSize, LibEnc,
        maxStr, maxLen, Fields.isEnum, Width.bits, Width.bytes, toSigned, UintElem, absent, Ty.isZero]
  · simp [cutTy, cutVal, Returns, ReturnsFields, readMax, announced, Ty.asLib, Ty.directLib, Ty.uintKind, Ty.kind,
        absent, Ty.isZero, Fields.isEnum]

example : (marshal .borsh cutTy cutVal).2.length = 7 ∧ ∀ n < 7,
    unmarshal .borsh cutTy cutTy.zero ((marshal .borsh cutTy cutVal).2.take n) ∈ [.err .eof, .err .notEnough] := by
  decide +kernel

/-! ### C33 -/

/-- C33: from any position in any buffer, decoding into any well-formed variable of a decodable type returns (it is a
total function) a value or an error, does not touch the buffer, and leaves the cursor inside it, not before its start. -/
theorem C33_no_panic {e : Encoding} (he : e.valid = true) (t : Ty) (ht : decodable e t false = true) (d : Dec)
    (hi : Inside d) (hd : d.enc = e) (old : Val) {N : Nat} (hold : Shaped N t old) :
    (decode t old d).1 ≠ .panic ∧ (decode t old d).2.data = d.data ∧ (decode t old d).2.enc = e ∧
      d.pos ≤ (decode t old d).2.pos ∧ Inside (decode t old d).2 := by
  obtain ⟨res, k, c, hr, hk, hp, -⟩ := decode_safe he t old ht d hi hd (N := max N d.rest.length) (by omega)
    (shaped_mono (by omega) t old hold)
  have hrl := d.rest_length hi
  rw [hr]
  refine ⟨hp, rfl, hd, ?_, ?_⟩
  · simp only [Dec.to, Dec.adv]; omega
  · exact Dec.to_ok (Dec.adv_ok hi hk)

/-- C33 for the one-call functions. -/
theorem C33_unmarshal {e : Encoding} (he : e.valid = true) (t : Ty) (ht : decodable e t false = true) (b : Bytes) :
    unmarshal e t t.zero b ≠ .panic :=
  (C33_no_panic he t ht (Dec.new b e) (Dec.new_ok b e) rfl t.zero (zero_shaped 0 t)).1

/-- The type of the round-trip example is decodable, in every encoding. -/
example : decodable .borsh (rtTy .le) false ∧ decodable .bin (rtTy .be) false ∧ decodable .compactU16 (rtTy .be) false := by
  decide

/-- The conditions of `decodable` are needed: a signed `sizeof` field announcing a negative number of `uint16`s, a `sizeof`
field that is not an integer, an optional field of a library type, a C-optional one, a field behind two pointers that is both,
and an ordinary field after an extension field do panic. -/
theorem C33_needed :
    unmarshal .bin cutTy cutTy.zero [1, 0, 0, 0, 0, 0, 255] = .panic ∧
    unmarshal .bin (.struct (.cons { name := [65], tag := { sizeOf := [66] } } .str .nil)) (.struct [.str []]) [0, 0, 0, 0, 0, 0, 0, 0] = .panic ∧
    unmarshal .bin (.struct (.cons { name := [65], tag := { option := true } } (.lib .int64) .nil)) (.struct [.int 0]) [] = .panic ∧
    unmarshal .borsh (.struct (.cons { name := [65], tag := { coption := true } } (.ptr (.ptr (.lib .int64))) .nil)) (.struct [.ptr none])
      [1, 0, 0, 0, 7, 0, 0, 0, 0, 0, 0, 0] = .ok (.struct [.ptr (some (.ptr (some (.int 7))))]) ∧
    unmarshal .borsh (.struct (.cons { name := [65], tag := { option := true, coption := true } } (.ptr (.ptr (.lib .int64))) .nil))
      (.struct [.ptr none]) [1, 1, 0, 0, 0, 7, 0, 0, 0, 0, 0, 0, 0] = .panic ∧
    unmarshal .bin (.struct (.cons { name := [65], tag := { binExt := true } } .bool (.cons { name := [66] } .bool .nil)))
      (.struct [.bool false, .bool false]) [] = .panic := by decide +kernel

/-! ### C34 -/

/-- C34: a decode that succeeds gives the same value and consumes the same number of bytes whatever is before the cursor
(`pre2` for `pre1`) and whatever is appended after the bytes that were there (`more`). -/
theorem C34_local {e : Encoding} (he : e.valid = true) (t : Ty) (ht : noExtension t = true) (old : Val)
    (cur : Option Order) (pre1 pre2 bs more : Bytes) (v : Val)
    (h : (decode t old (decAt e cur pre1 bs)).1 = .ok v) :
    (decode t old (decAt e cur pre2 (bs ++ more))).1 = .ok v ∧
    (decode t old (decAt e cur pre2 (bs ++ more))).2.pos - pre2.length = (decode t old (decAt e cur pre1 bs)).2.pos - pre1.length := by
  have hx : Ext more (decAt e cur pre1 bs) (decAt e cur pre2 (bs ++ more)) :=
    ⟨decAt_ok _ _ _ _, decAt_ok _ _ _ _, by simp, rfl, rfl⟩
  obtain ⟨s1, -⟩ := decode_stab he t ht old more _ _ hx rfl
  cases hr : decode t old (decAt e cur pre1 bs) with
  | mk res d1' =>
    rw [hr] at h
    simp only at h
    subst h
    obtain ⟨d2', hr2, -, hp, -⟩ := s1 v d1' hr
    rw [hr2]
    exact ⟨rfl, hp⟩

example : (decode cutTy cutTy.zero (decAt .borsh none [] [1, 2, 0, 1, 7, 0])).1 =
    .ok (.struct [.uint 513, .ptr none, .int 1, .seq (some [.uint 7])]) := by decide +kernel

/-- Extension fields do depend on what follows, so the condition is needed. -/
example : unmarshal .bin (.struct (.cons { name := [65], tag := { binExt := true } } .bool .nil)) (.struct [.bool false]) [] =
      .ok (.struct [.bool false]) ∧
    unmarshal .bin (.struct (.cons { name := [65], tag := { binExt := true } } .bool .nil)) (.struct [.bool false]) [1] =
      .ok (.struct [.bool true]) := by decide +kernel

/-! ### C35 -/

/-- C35: a slice (anywhere in a value: any state of the decoder, any tag) whose length, read from the buffer, exceeds the
number of bytes left is refused with `io.ErrUnexpectedEOF`, and the decoder stands right after the length. -/
theorem C35_checked (e : Encoding) (t : Ty) (o : Opt) (ho : o.sizeOf = none) (old : Val) (d d' : Dec) (n : Nat)
    (hn : readSeqLen e d = (.ok n, d')) (hi : Inside d') (h : left d' < n) :
    decCore e (.slice t) o old d = (.err .eof, d') := by
  have hrl := d'.rest_length hi
  have hrem : d'.remaining = left d' := rfl
  have h0 : ¬ (e = .borsh ∧ (n : Int) = 0) := by rintro ⟨-, h0⟩; omega
  simp only [decCore, ho]
  rw [M.bind_ok hn, M.bind_ok (show (pure (n : Int) : DM Int) d' = (.ok (n : Int), d') from rfl), if_neg h0, M.bind_apply,
    M.get_apply]
  simp only []
  rw [if_pos (by omega)]
  rfl

/-- C35 for `Decode(&slice)`: the length `n` declared in front, fewer than `n` bytes behind it. -/
theorem C35_declared {e : Encoding} (he : e.valid = true) (t : Ty) (old : Val) (n : Nat) (hn : n ≤ readMax e)
    (cur : Option Order) (pre tail : Bytes) (h : tail.length < n) :
    decode (.slice t) old (decAt e cur pre (lenPrefix e n ++ tail)) =
      (.err .eof, decAt e (some .le) (pre ++ lenPrefix e n) tail) := by
  have hr := readSeqLen_r he n hn (decAt e (some .le) pre (lenPrefix e n ++ tail)) tail rfl (decAt_ok _ _ _ _) (by simp)
  rw [decAt_adv] at hr
  have := C35_checked e t {} rfl old _ _ n hr (decAt_ok _ _ _ _) (by simp [left, decAt]; omega)
  have hne : ¬ e = .other := by intro h; rw [h] at he; cases he
  unfold decode
  rw [M.bind_apply, M.get_apply]
  simp only []
  rw [if_neg (by exact hne)]
  simp only [setCurD, M.bind_apply, M.modify_apply]
  exact this

/-- C35: no string, byte string or slice inside a decoded value (`Shaped`) is longer than the input. -/
theorem C35_bounded {e : Encoding} (he : e.valid = true) (t : Ty) (ht : decodable e t false = true) (b : Bytes) (v : Val)
    (h : unmarshal e t t.zero b = .ok v) : Shaped b.length t v := by
  obtain ⟨res, k, c, hr, -, -, hq⟩ := decode_safe he t t.zero ht (Dec.new b e) (Dec.new_ok b e) rfl (N := b.length) (by simp)
    (zero_shaped _ t)
  unfold unmarshal at h
  rw [hr] at h
  exact hq v h

/-- Four elements declared, three bytes there; a length of 2³¹−1 in Borsh costs nothing. -/
example : decode (.slice .bool) (.seq none) (decAt .bin none [] (lenPrefix .bin 4 ++ [1, 1, 1])) =
    (.err .eof, decAt .bin (some .le) (lenPrefix .bin 4) [1, 1, 1]) :=
  C35_declared (pre := []) rfl _ _ 4 (by simp [readMax]) none [1, 1, 1] (by simp)
example : unmarshal .borsh (.slice (.slice .bool)) (.seq none) [255, 255, 255, 127, 0] = .err .eof := by decide +kernel

/-! ### C36 -/

/-- C36, what holds: the outcome and the value depend on the earlier content of the destination only through the places
that decoding may leave alone (`SameKept`). -/
theorem C36_kept_partial {e : Encoding} (he : e.valid = true) (t : Ty) (ht : decodable e t false = true) (b : Bytes)
    (x y : Val) {N : Nat} (hx : Shaped N t x) (h : SameKept e t x y) : unmarshal e t x b = unmarshal e t y b := by
  unfold unmarshal
  rw [decode_agree he t x y ht (Dec.new b e) (Dec.new_ok b e) rfl (N := max N b.length) (by simp; omega)
    (shaped_mono (by omega) t x hx) h]

/-- C36 in full for types without such places: decoding into a used variable is decoding into a fresh one. -/
theorem C36_overwrites_partial {e : Encoding} (he : e.valid = true) (t : Ty) (ht : decodable e t false = true)
    (hw : overwrites e t = true) (b : Bytes) (x : Val) {N : Nat} (hx : Shaped N t x) :
    unmarshal e t x b = unmarshal e t t.zero b :=
  C36_kept_partial he t ht b x t.zero hx (sameKept_overwrites t hw x t.zero hx (zero_shaped N t))

/-- C36 is false in general: an empty map (and, in Borsh, an empty slice) leaves the old content in the destination, and
a Borsh enum keeps the payload of the variant that was there. -/
theorem C36_violated :
    (∃ (t : Ty) (b : Bytes) (x : Val), decodable .bin t false = true ∧ Shaped 1 t x ∧
      unmarshal .bin t t.zero b = .ok t.zero ∧ unmarshal .bin t x b ≠ unmarshal .bin t t.zero b) ∧
    (∃ (t : Ty) (b : Bytes) (x : Val), decodable .borsh t false = true ∧ Shaped 1 t x ∧
      unmarshal .borsh t t.zero b = .ok t.zero ∧ unmarshal .borsh t x b ≠ unmarshal .borsh t t.zero b) ∧
    (∃ (fs : Fields) (b : Bytes) (x : Val), fs.isEnum = true ∧ decodable .borsh (.struct fs) false = true ∧
      Shaped 1 (.struct fs) x ∧ unmarshal .borsh (.struct fs) x b ≠ unmarshal .borsh (.struct fs) (Ty.struct fs).zero b) := by
  refine ⟨⟨.map (.uint .w8 false) .bool, [0], .map (some [(.uint 1, .bool true)]), by decide, by simp [Shaped],
      by decide +kernel, by decide +kernel⟩,
    ⟨.slice (.uint .w8 false), [0, 0, 0, 0], .seq (some [.uint 1]), by decide, by simp [Shaped],
      by decide +kernel, by decide +kernel⟩,
    ⟨.cons { name := [69], tag := { isEnum := true } } .borshEnum (.cons { name := [65] } .bool (.cons { name := [66] } .bool .nil)),
      [1, 1], .struct [.uint 0, .bool true, .bool false], by decide, by decide, by simp [Shaped, ShapedFields],
      by decide +kernel⟩⟩

/-- A type with nested structs, pointers, arrays and optional fields that is overwritten entirely. -/
def freshTy : Ty := .struct <|
  .cons { name := [65] } (.ptr (.struct (.cons { name := [66] } (.array 2 (.lib .uint128)) .nil))) <|
  .cons { name := [80], tag := { option := true } } (.ptr .str) .nil

example : decodable .borsh freshTy false = true ∧ overwrites .borsh freshTy = true ∧
    Shaped 3 freshTy (.struct [.ptr (some (.struct [.arr [.u128 1 2 none, .u128 1 2 (some .be)]])), .ptr (some (.str [1, 2, 3]))]) := by
  refine ⟨by decide, by decide, by simp [freshTy, Shaped, ShapedFields, LibShaped]⟩

end Verif.Props
