import Verif.Proofs.InTurn
import Verif.Props.Lengths
import Verif.Props.Scalars
import Verif.Proofs.ValEq
import Verif.Spec.GoEqual
/-!
# C78, C79: decoding maps, slices and arrays
-/
set_option linter.unusedSimpArgs false
namespace Verif.Props
open Spec

/-- Lengths of slices and maps. -/
def SeqLen (e : Encoding) (p : Bytes) (n : Nat) : Prop := Declares e p n ∧ (e = .bin → n < 2 ^ 31)

theorem readSeqLen_cases {e : Encoding} (he : e.valid = true) (cur : Option Order) (pre unread : Bytes) (n : Nat) (d' : Dec) :
    readSeqLen e (decAt e cur pre unread) = (.ok n, d') ↔
      ∃ p rest, unread = p ++ rest ∧ SeqLen e p n ∧ d' = decAt e cur (pre ++ p) rest := by
  apply decAt_cases
  · cases e with
    | other => cases he
    | bin => exact (readLength_took he).weaken fun p n h => ⟨h.1, fun _ => h.2⟩
    | borsh => exact (readUint32_took .le).weaken fun p n h => ⟨(fixed_leValue (k := 4) h.1).1 h.2, fun h => by cases h⟩
    | compactU16 => exact readCompactU16_took.weaken fun p n h => ⟨⟨h.2, h.1⟩, fun h => by cases h⟩
  · rintro p n ⟨h1, h2⟩
    cases e with
    | other => cases he
    | bin => exact readLength_reads' p n ⟨h1, h2 rfl⟩
    | borsh =>
      have hlt : n < 256 ^ 4 := by have := leValue_lt p; rw [h1.1, h1.2] at this; exact this
      have hp : p = putUint .le 4 n := by rw [← fixed_eq]; exact (fixed_leValue hlt).2 h1
      subst hp
      exact readUint32_reads .borsh .le n (by simpa using hlt)
    | compactU16 =>
      obtain ⟨h1, rfl⟩ := h1
      exact readCompactU16_reads .compactU16 n h1

theorem decode_core {e : Encoding} (he : e.valid = true) (t : Ty) (old : Val) (cur : Option Order) (pre unread : Bytes) :
    decode t old (decAt e cur pre unread) = decCore e t {} old (decAt e (some .le) pre unread) := by
  have hne : ¬ e = .other := by intro h; rw [h] at he; cases he
  unfold decode
  rw [M.bind_apply, M.get_apply]
  simp only []
  rw [if_neg (by exact hne)]
  simp only [setCurD, M.bind_apply, M.modify_apply]
  rfl

theorem bind_ok_iff {σ α β : Type} {m : M σ α} {f : α → M σ β} {s : σ} {b : β} {s' : σ} :
    (m >>= f) s = (.ok b, s') ↔ ∃ a s1, m s = (.ok a, s1) ∧ f a s1 = (.ok b, s') := by
  rw [M.bind_apply]
  rcases m s with ⟨r, s1⟩
  cases r with
  | err => simp
  | panic => simp
  | ok a =>
    simp only [Prod.mk.injEq, Res.ok.injEq]
    constructor
    · intro h; exact ⟨a, s1, ⟨rfl, rfl⟩, h⟩
    · rintro ⟨_, _, ⟨rfl, rfl⟩, h⟩; exact h

theorem good_decAt (e : Encoding) (cur : Option Order) (pre rest : Bytes) : Good e rest.length (decAt e cur pre rest) :=
  ⟨decAt_ok _ _ _ _, rfl, by simp⟩

/-- C78: decoding into a map succeeds exactly when the unread bytes start with a length prefix and that many keys and
values follow, each of which can be decoded into a new variable right where the one before it stopped.  With a length of
zero the map is left as it is.  Otherwise it is replaced by a new map with the entries (in some order) of the pairs that
are not followed by another pair with an equal key. -/
theorem C78_map {e : Encoding} (he : e.valid = true) {k t : Ty} (hk : decodable e k false = true)
    (ht : decodable e t false = true) (old v : Val) (cur : Option Order) (pre unread : Bytes) (d' : Dec) :
    decode (.map k t) old (decAt e cur pre unread) = (.ok v, d') →
      ∃ p rest n, unread = p ++ rest ∧ Declares e p n ∧ (e = .bin → n < 2 ^ 31) ∧
        ((n = 0 ∧ v = old ∧ d' = decAt e (some .le) (pre ++ p) rest) ∨
         ∃ ps m, n = ps.length ∧ ps ≠ [] ∧ Pairs k t ps (decAt e (some .le) (pre ++ p) rest) d' ∧ v = .map (some m) ∧
           m.Perm (lasts k ps)) := by
  rw [decode_core he]
  simp only [decCore]
  rw [bind_ok_iff]
  rintro ⟨n, d1, h1, h2⟩
  obtain ⟨p, rest, hu, ⟨h3, h4⟩, rfl⟩ := (readSeqLen_cases he _ _ _ _ _).1 h1
  refine ⟨p, rest, n, hu, h3, h4, ?_⟩
  split at h2
  · rename_i h0
    simp only [M.pure_apply, Prod.mk.injEq, Res.ok.injEq] at h2
    exact .inl ⟨h0, h2.1.symm, h2.2.symm⟩
  · rename_i h0
    rw [bind_ok_iff] at h2
    obtain ⟨ps, d2, h5, h6⟩ := h2
    obtain ⟨h7, h8⟩ := (repeat_pairs he hk ht n ps _ _ (good_decAt _ _ _ _)).1 h5
    simp only [M.pure_apply, Prod.mk.injEq, Res.ok.injEq] at h6
    obtain ⟨rfl, rfl⟩ := h6
    refine .inr ⟨ps, _, h7.symm, ?_, h8, rfl, ?_⟩
    · rintro rfl; exact h0 h7.symm
    · exact (foldl_lasts ps)

/-- C78: and conversely, such bytes are accepted. -/
theorem C78_accepted {e : Encoding} (he : e.valid = true) {k t : Ty} (hk : decodable e k false = true)
    (ht : decodable e t false = true) (old : Val) (cur : Option Order) (pre p rest : Bytes) :
    (Declares e p 0 → decode (.map k t) old (decAt e cur pre (p ++ rest)) = (.ok old, decAt e (some .le) (pre ++ p) rest)) ∧
    (∀ ps d', Declares e p ps.length → (e = .bin → ps.length < 2 ^ 31) → ps ≠ [] →
      Pairs k t ps (decAt e (some .le) (pre ++ p) rest) d' →
      ∃ m, decode (.map k t) old (decAt e cur pre (p ++ rest)) = (.ok (.map (some m)), d') ∧ m.Perm (lasts k ps)) := by
  rw [decode_core he]
  simp only [decCore]
  constructor
  · intro h
    rw [bind_ok_iff]
    exact ⟨0, _, (readSeqLen_cases he _ _ _ _ _).2 ⟨p, rest, rfl, ⟨h, fun _ => by decide⟩, rfl⟩, by rw [if_pos rfl]; rfl⟩
  · intro ps d' h1 h2 h3 h4
    refine ⟨_, ?_, foldl_lasts ps⟩
    rw [bind_ok_iff]
    refine ⟨ps.length, _, (readSeqLen_cases he _ _ _ _ _).2 ⟨p, rest, rfl, ⟨h1, h2⟩, rfl⟩, ?_⟩
    rw [if_neg (by simpa using h3), bind_ok_iff]
    exact ⟨ps, d', (repeat_pairs he hk ht _ ps _ _ (good_decAt _ _ _ _)).2 ⟨rfl, h4⟩, rfl⟩

mutual
/-- Key types whose values are equal exactly when they are the same: no floats, no pointers. -/
def plainKey : Ty → Bool
  | .bool | .uint _ _ | .int _ _ | .plainInt | .plainUint | .borshEnum | .str => true
  | .lib l => l != .jsonFloat64 && l != .hexBytes
  | .array _ t => plainKey t
  | .struct fs => plainKeys fs
  | _ => false
def plainKeys : Fields → Bool
  | .nil => true
  | .cons _ t fs => plainKey t && plainKeys fs
end

theorem plainEq_eq {x y : Val} (h : x.plainEq y = true) : x = y := by
  unfold Val.plainEq at h
  split at h <;> simp_all

mutual
theorem keyEq_plain {N : Nat} : (k : Ty) → (x y : Val) → plainKey k = true → Shaped N k x → Shaped N k y →
    (k.keyEq x y = true ↔ x = y)
  | .bool, x, y, _, hx, hy => by cases x <;> cases y <;> simp_all [Shaped, Ty.keyEq, Val.plainEq]
  | .uint _ _, x, y, _, hx, hy => by cases x <;> cases y <;> simp_all [Shaped, Ty.keyEq, Val.plainEq]
  | .int _ _, x, y, _, hx, hy => by cases x <;> cases y <;> simp_all [Shaped, Ty.keyEq, Val.plainEq]
  | .plainInt, x, y, _, hx, hy => by cases x <;> cases y <;> simp_all [Shaped, Ty.keyEq, Val.plainEq]
  | .plainUint, x, y, _, hx, hy => by cases x <;> cases y <;> simp_all [Shaped, Ty.keyEq, Val.plainEq]
  | .borshEnum, x, y, _, hx, hy => by cases x <;> cases y <;> simp_all [Shaped, Ty.keyEq, Val.plainEq]
  | .str, x, y, _, hx, hy => by cases x <;> cases y <;> simp_all [Shaped, Ty.keyEq, Val.plainEq]
  | .lib l, x, y, h, hx, hy => by
    simp only [Shaped] at hx hy
    cases l <;> simp [plainKey] at h <;> cases x <;> simp only [LibShaped] at hx <;> cases y <;> simp only [LibShaped] at hy <;>
      first
      | (simp [Ty.keyEq, Lib.keyEq, Val.plainEq, and_assoc]; done)
      | skip
    all_goals
      rename_i xs ys
      cases xs <;> simp only [LibShaped] at hx
      cases ys <;> simp only [LibShaped] at hy
      simp [Ty.keyEq, Lib.keyEq]
  | .array n t, x, y, h, hx, hy => by
    cases x <;> simp only [Shaped] at hx
    cases y <;> simp only [Shaped] at hy
    rename_i xs ys
    simp only [Ty.keyEq, Bool.and_eq_true, beq_iff_eq, Val.arr.injEq]
    simp only [plainKey] at h
    rw [hx.1, hy.1]
    simp only [true_and]
    have hl : xs.length = ys.length := by rw [hx.1, hy.1]
    replace hx := hx.2
    replace hy := hy.2
    induction xs generalizing ys with
    | nil => cases ys <;> simp_all
    | cons a as ih =>
      cases ys with
      | nil => simp at hl
      | cons b bs =>
        simp only [List.zip_cons_cons, List.all_cons, Bool.and_eq_true, List.cons.injEq,
          keyEq_plain t a b h (hx a (by simp)) (hy b (by simp))]
        exact and_congr_right fun _ => ih bs (by simpa using hl) (fun z hz => hx z (List.mem_cons_of_mem _ hz))
          (fun z hz => hy z (List.mem_cons_of_mem _ hz))
  | .struct fs, x, y, h, hx, hy => by
    cases x <;> simp only [Shaped] at hx
    cases y <;> simp only [Shaped] at hy
    simp only [Ty.keyEq, Val.struct.injEq]
    exact keysEq_plain fs _ _ (by simpa only [plainKey] using h) hx hy
  | .f32, _, _, h, _, _ | .f64, _, _, h, _, _ | .ptr _, _, _, h, _, _ | .slice _, _, _, h, _, _ | .map _ _, _, _, h, _, _
  | .iface, _, _, h, _, _ | .other, _, _, h, _, _ => by simp [plainKey] at h
theorem keysEq_plain {N : Nat} : (fs : Fields) → (xs ys : List Val) → plainKeys fs = true → ShapedFields N fs xs →
    ShapedFields N fs ys → (fs.keysEq xs ys = true ↔ xs = ys)
  | .nil, xs, ys, _, hx, hy => by
    cases xs <;> simp only [ShapedFields] at hx
    cases ys <;> simp only [ShapedFields] at hy
    simp [Fields.keysEq]
  | .cons m t fs, xs, ys, h, hx, hy => by
    cases xs <;> simp only [ShapedFields] at hx
    cases ys <;> simp only [ShapedFields] at hy
    simp only [plainKeys, Bool.and_eq_true] at h
    simp only [Fields.keysEq, Bool.and_eq_true, List.cons.injEq, keyEq_plain t _ _ h.1 hx.1 hy.1,
      keysEq_plain fs _ _ h.2 hx.2 hy.2]
end

/-- C78: what "equal key" means: the same value; for floats, the same number, which a NaN is not even to itself, and `+0`
and `-0` are. -/
theorem C78_equal :
    (∀ (N : Nat) (k : Ty) (x y : Val), plainKey k = true → Shaped N k x → Shaped N k y → (k.keyEq x y = true ↔ x = y)) ∧
    (∀ x y, x < 2 ^ 64 → y < 2 ^ 64 → (Ty.f64.keyEq (.float x) (.float y) = true ↔
      ¬ NaN64 x ∧ ¬ NaN64 y ∧ (x = y ∨ (x = 0 ∨ x = 2 ^ 63) ∧ (y = 0 ∨ y = 2 ^ 63)))) ∧
    (∀ x y, x < 2 ^ 32 → y < 2 ^ 32 → (Ty.f32.keyEq (.float x) (.float y) = true ↔
      ¬ NaN32 x ∧ ¬ NaN32 y ∧ (x = y ∨ (x = 0 ∨ x = 2 ^ 31) ∧ (y = 0 ∨ y = 2 ^ 31)))) := by
  refine ⟨fun N k x y h hx hy => keyEq_plain k x y h hx hy, ?_, ?_⟩
  · intro x y hx hy
    simp only [Ty.keyEq, floatEq, floatKey, Bool.and_eq_true, Bool.not_eq_true', ← Bool.not_eq_true, isNaN64_iff, beq_iff_eq,
      and_assoc]
    refine and_congr_right fun _ => and_congr_right fun _ => ?_
    split <;> split <;> omega
  · intro x y hx hy
    simp only [Ty.keyEq, floatEq, floatKey, Bool.and_eq_true, Bool.not_eq_true', ← Bool.not_eq_true, isNaN32_iff, beq_iff_eq,
      and_assoc]
    refine and_congr_right fun _ => and_congr_right fun _ => ?_
    split <;> split <;> omega

theorem sameNumber64 {x y : Nat} (hx : x < 2 ^ 64) (hy : y < 2 ^ 64) :
    floatEq 64 isNaN64 x y = true ↔ SameNumber64 x y := C78_equal.2.1 x y hx hy

theorem sameNumber32 {x y : Nat} (hx : x < 2 ^ 32) (hy : y < 2 ^ 32) :
    floatEq 32 isNaN32 x y = true ↔ SameNumber32 x y := C78_equal.2.2 x y hx hy

mutual
theorem keyEq_goEqual : (k : Ty) → (x y : Val) → KeyValue k x → KeyValue k y → (k.keyEq x y = true ↔ GoEqual k x y)
  | .bool, x, y, hx, hy => by cases x <;> cases y <;> simp_all [KeyValue, GoEqual, Ty.keyEq, Val.plainEq]
  | .uint _ _, x, y, hx, hy => by cases x <;> cases y <;> simp_all [KeyValue, GoEqual, Ty.keyEq, Val.plainEq]
  | .int _ _, x, y, hx, hy => by cases x <;> cases y <;> simp_all [KeyValue, GoEqual, Ty.keyEq, Val.plainEq]
  | .plainInt, x, y, hx, hy => by cases x <;> cases y <;> simp_all [KeyValue, GoEqual, Ty.keyEq, Val.plainEq]
  | .plainUint, x, y, hx, hy => by cases x <;> cases y <;> simp_all [KeyValue, GoEqual, Ty.keyEq, Val.plainEq]
  | .borshEnum, x, y, hx, hy => by cases x <;> cases y <;> simp_all [KeyValue, GoEqual, Ty.keyEq, Val.plainEq]
  | .str, x, y, hx, hy => by cases x <;> cases y <;> simp_all [KeyValue, GoEqual, Ty.keyEq, Val.plainEq]
  | .iface, x, y, hx, hy => by cases x <;> cases y <;> simp_all [KeyValue, GoEqual, Ty.keyEq, Val.plainEq]
  | .ptr t, x, y, hx, hy => by
    cases x <;> simp only [KeyValue] at hx
    cases y <;> simp only [KeyValue] at hy
    rename_i p q
    cases p <;> cases q <;> simp [GoEqual, Ty.keyEq, Val.plainEq]
  | .f32, x, y, hx, hy => by
    cases x <;> simp only [KeyValue] at hx
    cases y <;> simp only [KeyValue] at hy
    simp only [Ty.keyEq, GoEqual, sameNumber32 hx hy]
  | .f64, x, y, hx, hy => by
    cases x <;> simp only [KeyValue] at hx
    cases y <;> simp only [KeyValue] at hy
    simp only [Ty.keyEq, GoEqual, sameNumber64 hx hy]
  | .lib l, x, y, hx, hy => by
    simp only [KeyValue] at hx hy
    cases l <;> cases x <;> simp only [LibKey] at hx <;> cases y <;> simp only [LibKey] at hy <;>
      first
      | (simp [Ty.keyEq, Lib.keyEq, GoEqual, Val.plainEq, and_assoc]; done)
      | (simp only [Ty.keyEq, Lib.keyEq, GoEqual, sameNumber64 hx hy]; done)
      | (cases hx; cases hy; simp [Ty.keyEq, Lib.keyEq, GoEqual]; done)
      | cases hx
      | cases hy
  | .array n t, x, y, hx, hy => by
    cases x <;> simp only [KeyValue] at hx
    cases y <;> simp only [KeyValue] at hy
    rename_i xs ys
    simp only [Ty.keyEq, GoEqual, Bool.and_eq_true, beq_iff_eq, List.all_eq_true]
    refine and_congr_right fun _ => forall_congr' fun p => ?_
    refine imp_congr_right fun hp => ?_
    have := List.of_mem_zip hp
    exact keyEq_goEqual t _ _ (hx.2 _ this.1) (hy.2 _ this.2)
  | .struct fs, x, y, hx, hy => by
    cases x <;> simp only [KeyValue] at hx
    cases y <;> simp only [KeyValue] at hy
    simp only [Ty.keyEq, GoEqual]
    exact keysEq_goEqual fs _ _ hx hy
  | .slice _, x, _, h, _ | .map _ _, x, _, h, _ | .other, x, _, h, _ => by cases x <;> simp only [KeyValue] at h
theorem keysEq_goEqual : (fs : Fields) → (xs ys : List Val) → KeyValues fs xs → KeyValues fs ys →
    (fs.keysEq xs ys = true ↔ GoEqualFields fs xs ys)
  | .nil, xs, ys, hx, hy => by
    cases xs <;> simp only [KeyValues] at hx
    cases ys <;> simp only [KeyValues] at hy
    simp [Fields.keysEq, GoEqualFields]
  | .cons m t fs, xs, ys, hx, hy => by
    cases xs <;> simp only [KeyValues] at hx
    cases ys <;> simp only [KeyValues] at hy
    simp only [Fields.keysEq, GoEqualFields, Bool.and_eq_true, keyEq_goEqual t _ _ hx.1 hy.1, keysEq_goEqual fs _ _ hx.2 hy.2]
end

/-- C78: "equal key" for every type that Go accepts for map keys. -/
theorem C78_keys (k : Ty) (x y : Val) (hx : KeyValue k x) (hy : KeyValue k y) : k.keyEq x y = true ↔ GoEqual k x y :=
  keyEq_goEqual k x y hx hy

/-- Two struct keys with a nil pointer and the two float zeros are one key. -/
example : ∃ (k : Ty) (x y : Val), KeyValue k x ∧ KeyValue k y ∧ x ≠ y ∧ GoEqual k x y :=
  ⟨.struct (.cons { name := [65] } (.ptr .str) (.cons { name := [66] } .f64 .nil)), .struct [.ptr none, .float 0],
    .struct [.ptr none, .float (2 ^ 63)], by simp [KeyValue, KeyValues], by simp [KeyValue, KeyValues],
    by simp, by simp [GoEqual, GoEqualFields, SameNumber64, IsNaN]⟩

/-- A map from `uint8` to strings, Borsh: key 7 occurs twice, the second value is kept. -/
example : decode (.map (.uint .w8 false) .str) (.map none)
      (decAt .borsh none [9] [2, 0, 0, 0, 7, 1, 0, 0, 0, 65, 7, 1, 0, 0, 0, 66, 1]) =
    (.ok (.map (some [(.uint 7, .str [66])])), decAt .borsh (some .le) [9, 2, 0, 0, 0, 7, 1, 0, 0, 0, 65, 7, 1, 0, 0, 0, 66] [1]) ∧
    lasts (.uint .w8 false) [(.uint 7, .str [65]), (.uint 7, .str [66])] = [(.uint 7, .str [66])] ∧
    Declares .borsh [2, 0, 0, 0] 2 := by
  refine ⟨?_, by decide +kernel, rfl, rfl⟩
  decide +kernel

/-- `+0` then `-0` as keys of a `map[float64]bool`: one entry, with the later key; two NaNs: two entries. -/
example : lasts .f64 [(.float 0, .bool true), (.float (2 ^ 63), .bool false)] = [(.float (2 ^ 63), .bool false)] ∧
    (lasts .f64 [(.float 0x7ff8000000000001, .bool true), (.float 0x7ff8000000000001, .bool false)]).length = 2 ∧
    plainKey (.struct (.cons { name := [65] } .str (.cons { name := [66] } (.array 2 (.int .w16 false)) .nil))) = true := by
  decide +kernel

/-- C79: a slice is decoded exactly when the unread bytes start with a length prefix declaring `n`, at least `n` bytes
follow and `n` new elements can be decoded one after the other; these are the new elements, and nothing is left of the old
slice.  Borsh leaves the slice as it is when `n` is zero.  `t` is not one of the library's types of kind `uint16`, `uint32`
or `uint64` (see `C79_violated`), and the input is shorter than 2 GiB. -/
theorem C79_slice_partial {e : Encoding} (he : e.valid = true) {t : Ty} (ht : decodable e t false = true)
    (hl : t.uintKind = none ∨ t.asLib = none) (old v : Val) (cur : Option Order) (pre unread : Bytes)
    (hs : unread.length < 2 ^ 31) (d' : Dec) :
    decode (.slice t) old (decAt e cur pre unread) = (.ok v, d') ↔
      ∃ p rest n, unread = p ++ rest ∧ Declares e p n ∧ n ≤ rest.length ∧
        if e = .borsh ∧ n = 0 then v = old ∧ d' = decAt e (some .le) (pre ++ p) rest
        else ∃ xs, v = .seq (some xs) ∧ InTurn t (List.replicate n t.zero) xs (decAt e (some .le) (pre ++ p) rest) d' := by
  rw [decode_core he]
  simp only [decCore]
  rw [bind_ok_iff]
  have hrem : ∀ p rest, (decAt e (some .le) (pre ++ p) rest).remaining = (rest.length : Int) := by
    intro p rest; simp [Dec.remaining, decAt]; omega
  have body : ∀ (p rest : Bytes) (n : Nat), n < 2 ^ 31 → ((do
      match t.uintKind with
        | some w => do
          let xs ← readUints n w
          pure (.seq (some xs))
        | none => do
          let xs ← repeatM (do setCurD .le; decCore e t {} t.zero) (n : Int).toNat
          pure (.seq (some xs)) : DM Val) (decAt e (some .le) (pre ++ p) rest) = (.ok v, d') ↔
      ∃ xs, v = .seq (some xs) ∧ InTurn t (List.replicate n t.zero) xs (decAt e (some .le) (pre ++ p) rest) d') := by
    intro p rest n hn
    cases hu : t.uintKind with
    | some w =>
      simp only []
      have hl' : t.asLib = none := by rcases hl with h | h; · rw [hu] at h; cases h
                                      · exact h
      rw [bind_ok_iff]
      constructor
      · rintro ⟨xs, d1, h1, h2⟩
        simp only [M.pure_apply, Prod.mk.injEq, Res.ok.injEq] at h2
        obtain ⟨rfl, rfl⟩ := h2
        exact ⟨xs, rfl, (readUints_inTurn he hu hl' n _ (by simp) xs _ _ (decAt_ok _ _ _ _) rfl rfl).1 h1⟩
      · rintro ⟨xs, rfl, h⟩
        exact ⟨xs, d', (readUints_inTurn he hu hl' n _ (by simp) xs _ _ (decAt_ok _ _ _ _) rfl rfl).2 hn h, rfl⟩
    | none =>
      simp only [Int.toNat_natCast]
      have hz : ∀ x ∈ List.replicate n t.zero, Shaped rest.length t x := by
        intro x hx; rw [List.eq_of_mem_replicate hx]; exact zero_shaped _ t
      rw [bind_ok_iff, ← traverse_replicate (f := fun x => do setCurD .le; decCore e t {} x)]
      constructor
      · rintro ⟨xs, d1, h1, h2⟩
        simp only [M.pure_apply, Prod.mk.injEq, Res.ok.injEq] at h2
        obtain ⟨rfl, rfl⟩ := h2
        exact ⟨xs, rfl, (traverse_inTurn he ht _ xs _ _ hz (good_decAt _ _ _ _)).1 h1⟩
      · rintro ⟨xs, rfl, h⟩
        exact ⟨xs, d', (traverse_inTurn he ht _ xs _ _ hz (good_decAt _ _ _ _)).2 h, rfl⟩
  constructor
  · rintro ⟨n, d1, h3, h2⟩
    rw [M.bind_apply, M.pure_apply] at h2
    simp only [] at h2
    obtain ⟨p, rest, hu, ⟨h5, h6⟩, rfl⟩ := (readSeqLen_cases he _ _ _ _ _).1 h3
    refine ⟨p, rest, n, hu, h5, ?_⟩
    have hrl : rest.length ≤ unread.length := by rw [hu]; simp
    by_cases h0 : e = .borsh ∧ n = 0
    · rw [if_pos (by simpa using h0)] at h2
      rw [if_pos h0]
      simp only [M.pure_apply, Prod.mk.injEq, Res.ok.injEq] at h2
      exact ⟨by omega, h2.1.symm, h2.2.symm⟩
    · rw [if_neg (by simpa using h0), M.bind_apply, M.get_apply] at h2
      simp only [] at h2
      rw [hrem] at h2
      split at h2
      · simp [M.err] at h2
      · rename_i hle
        rw [if_neg h0]
        exact ⟨by omega, (body p rest n (by omega)).1 h2⟩
  · rintro ⟨p, rest, n, hu, h5, h6, h7⟩
    have hrl : rest.length ≤ unread.length := by rw [hu]; simp
    refine ⟨n, decAt e (some .le) (pre ++ p) rest, ?_, ?_⟩
    · exact (readSeqLen_cases he _ _ _ _ _).2 ⟨p, rest, hu, ⟨h5, fun _ => by omega⟩, rfl⟩
    · rw [M.bind_apply, M.pure_apply]
      simp only []
      by_cases h0 : e = .borsh ∧ n = 0
      · rw [if_pos h0] at h7
        rw [if_pos (by simpa using h0), h7.1, h7.2]; rfl
      · rw [if_neg h0] at h7
        rw [if_neg (by simpa using h0), M.bind_apply, M.get_apply]
        simp only []
        rw [hrem, if_neg (by omega)]
        exact (body p rest n (by omega)).2 h7

/-- C79: an array is decoded exactly when its elements can be decoded one after the other, each into the old element. -/
theorem C79_array_partial {e : Encoding} (he : e.valid = true) {t : Ty} (ht : decodable e t false = true)
    (hl : t.uintKind = none ∨ t.asLib = none) (n N : Nat) (hn : n < 2 ^ 31) (olds : List Val) (ho : olds.length = n)
    (hs : ∀ x ∈ olds, Shaped N t x) (v : Val) (cur : Option Order) (pre unread : Bytes) (d' : Dec) :
    decode (.array n t) (.arr olds) (decAt e cur pre unread) = (.ok v, d') ↔
      ∃ xs, v = .arr xs ∧ InTurn t olds xs (decAt e (some .le) pre unread) d' := by
  rw [decode_core he]
  simp only [decCore]
  cases hu : t.uintKind with
  | some w =>
    simp only []
    have hl' : t.asLib = none := by rcases hl with h | h; · rw [hu] at h; cases h
                                    · exact h
    rw [bind_ok_iff]
    constructor
    · rintro ⟨xs, d1, h1, h2⟩
      simp only [M.pure_apply, Prod.mk.injEq, Res.ok.injEq] at h2
      obtain ⟨rfl, rfl⟩ := h2
      exact ⟨xs, rfl, (readUints_inTurn he hu hl' n _ ho xs _ _ (decAt_ok _ _ _ _) rfl rfl).1 h1⟩
    · rintro ⟨xs, rfl, h⟩
      exact ⟨xs, d', (readUints_inTurn he hu hl' n _ ho xs _ _ (decAt_ok _ _ _ _) rfl rfl).2 hn h, rfl⟩
  | none =>
    simp only [Val.elems]
    have hs' : ∀ x ∈ olds, Shaped (N + unread.length) t x := fun x hx => shaped_mono (N := N) (by omega) t x (hs x hx)
    have hg : Good e (N + unread.length) (decAt e (some .le) pre unread) := ⟨decAt_ok _ _ _ _, rfl, by simp⟩
    rw [bind_ok_iff]
    constructor
    · rintro ⟨xs, d1, h1, h2⟩
      simp only [M.pure_apply, Prod.mk.injEq, Res.ok.injEq] at h2
      obtain ⟨rfl, rfl⟩ := h2
      exact ⟨xs, rfl, (traverse_inTurn he ht _ xs _ _ hs' hg).1 h1⟩
    · rintro ⟨xs, rfl, h⟩
      exact ⟨xs, d', (traverse_inTurn he ht _ xs _ _ hs' hg).2 h, rfl⟩

/-- Two strings in a CompactU16 slice; the bulk path for `uint16`; a `[2]string` whose elements are overwritten. -/
example :
    InTurn .str [.str [], .str []] [.str [65], .str []] (decAt .compactU16 (some .le) [2] [1, 65, 0, 9])
      (decAt .compactU16 (some .le) [2, 1, 65, 0] [9]) ∧
    decode (.slice .str) (.seq none) (decAt .compactU16 none [] [2, 1, 65, 0, 9]) =
      (.ok (.seq (some [.str [65], .str []])), decAt .compactU16 (some .le) [2, 1, 65, 0] [9]) ∧
    decode (.slice (.uint .w16 false)) (.seq none) (decAt .bin none [] [2, 1, 0, 2, 0, 9]) =
      (.ok (.seq (some [.uint 1, .uint 2])), decAt .bin (some .le) [2, 1, 0, 2, 0] [9]) ∧
    decode (.array 2 .str) (.arr [.str [1], .str [2]]) (decAt .compactU16 none [] [1, 65, 0, 9]) =
      (.ok (.arr [.str [65], .str []]), decAt .compactU16 (some .le) [1, 65, 0] [9]) := by
  refine ⟨.cons (d1 := decAt .compactU16 (some .le) [2, 1, 65] [0, 9]) ?_ (.cons ?_ (.nil _)), ?_, ?_, ?_⟩ <;> decide +kernel

/-- C79 fails for `[]Varuint32`: a `Varuint32` alone is a varint, in a slice it is four bytes. -/
theorem C79_violated (e : Encoding) (he : e.valid = true) :
    (decode (.lib .varuint32) (.uint 0) (decAt e none [] [0xac, 2])).1 = .ok (.uint 300) ∧
    (decode (.slice (.lib .varuint32)) (.seq none) (decAt e none [] (lenPrefix e 1 ++ [0xac, 2]))).1 = .err .eof ∧
    (decode (.slice (.lib .varuint32)) (.seq none) (decAt e none [] (lenPrefix e 1 ++ [0xac, 2, 0, 0]))).1 =
      .ok (.seq (some [.uint 684])) := by
  cases e <;> first | decide +kernel | cases he

end Verif.Props
