import Verif.Proofs.Parts
import Verif.Proofs.Twin
/-!
# Encoders and decoders have no memory; values are written part by part (C88, C89)

These also cover the calls that fail or panic.
-/
set_option linter.unusedSimpArgs false
namespace Verif.Props
open Verif Verif.Spec

/-! ### C88 -/

theorem encode_does {e : Encoding} (he : e.valid = true) (t : Ty) (v : Val) : Does e (encode t v) (marshal e t v) := by
  intro s hs hn
  have hne : e ≠ .other := by intro h; subst h; cases he
  obtain ⟨cs, c, h1, h2⟩ := does_core he t v s hs hn
  refine ⟨cs, c, h1, ?_⟩
  unfold encode
  rw [M.bind_ok (M.get_apply _), hs, if_neg hne]
  exact h2

/-- `Encode` on an encoder that has been used before, successfully or not: the result is that of a new encoder, and the same
bytes go out, also when it fails. -/
theorem C88_encode (t : Ty) (v : Val) (s : Enc) (he : s.enc.valid = true) (hn : NoFail s) :
    (encode t v s).1 = (marshal s.enc t v).1 ∧
    (encode t v s).2.out = s.out ++ (marshal s.enc t v).2 ∧
    (encode t v s).2.written = s.written + (marshal s.enc t v).2.length := by
  obtain ⟨cs, c, h1, h2⟩ := encode_does he t v s rfl hn
  rw [h2, ← h1]
  refine ⟨rfl, ?_, ?_⟩
  · simp [Enc.out, Enc.left, Enc.push]
  · simp [Enc.written, Enc.left, Enc.push]

/-- A failing `Marshal` returns the bytes that come before the error: here the first field of a struct. -/
theorem C88_before_error :
    marshal .bin (.struct (.cons { name := [65], exported := true } (.uint .w16 false)
      (.cons { name := [66], exported := true } .plainInt .nil))) (.struct [.uint 513, .int 7]) = (.err .unsupported, [1, 2]) := by
  decide +kernel

/-- Any number of values on one encoder, whatever becomes of each: what went out is what `Marshal` gives for each. -/
theorem C88_many (xs : List (Ty × Val)) : ∀ s : Enc, s.enc.valid = true → NoFail s →
    (xs.foldl (fun s x => (encode x.1 x.2 s).2) s).out = s.out ++ (xs.map fun x => (marshal s.enc x.1 x.2).2).flatten := by
  induction xs with
  | nil => intro s _ _; simp
  | cons x xs ih =>
    intro s he hn
    obtain ⟨cs, c, h1, h2⟩ := encode_does he x.1 x.2 s rfl hn
    rw [List.foldl_cons, ih _ (by rw [h2]; exact he) (by rw [h2]; exact hn), (C88_encode x.1 x.2 s he hn).2.1, h2]
    simp [Enc.left, Enc.push]

/-- Three values of which the second fails on the way. -/
example : (([(Ty.uint .w8 false, Val.uint 7), (Ty.slice .plainInt, Val.seq (some [.int 1])), (Ty.bool, Val.bool true)]).foldl
    (fun s x => (encode x.1 x.2 s).2) (Enc.new .borsh)).out = [7] ++ [1, 0, 0, 0] ++ [1] := by decide +kernel

/-- `Decode` anywhere in the data, after whatever was read before: the result, an error and a panic included, is that of
`Unmarshal` on the unread bytes, and as many of them are consumed. -/
theorem C88_decode (t : Ty) (old : Val) (d : Dec) (h0 : 0 ≤ d.pos) (h1 : d.pos ≤ d.data.length) :
    (decode t old d).1 = unmarshal d.enc t old (d.data.drop d.pos.toNat) ∧
    (decode t old d).2.pos = d.pos + (decode t old (Dec.new (d.data.drop d.pos.toNat) d.enc)).2.pos ∧
    (decode t old d).2.data.drop (decode t old d).2.pos.toNat =
      (d.data.drop d.pos.toNat).drop (decode t old (Dec.new (d.data.drop d.pos.toNat) d.enc)).2.pos.toNat := by
  have ht : Twins (- d.pos) d.data (d.data.drop d.pos.toNat) { d with cur := none } (Dec.new (d.data.drop d.pos.toNat) d.enc) :=
    ⟨rfl, rfl, h0, Int.le_refl 0, by show (0 : Int) = d.pos + -d.pos; omega,
      by show ((d.data.drop d.pos.toNat).length : Int) = d.data.length + -d.pos; rw [List.length_drop]; omega, rfl, rfl, rfl⟩
  obtain ⟨g1, g2⟩ := decode_twin t old _ _ _ _ _ ht
  have hc : (decode t old { d with cur := none }).1 = (decode t old d).1 ∧
      (decode t old { d with cur := none }).2.pos = (decode t old d).2.pos ∧
      (decode t old { d with cur := none }).2.data = (decode t old d).2.data := by
    unfold decode
    rw [M.bind_ok (M.get_apply _), M.bind_ok (M.get_apply _)]
    by_cases he : d.enc = .other
    · rw [if_pos (show ({ d with cur := none } : Dec).enc = .other from he)]
      exact ⟨rfl, rfl, rfl⟩
    · rw [if_neg (show ¬ ({ d with cur := none } : Dec).enc = .other from he)]
      exact ⟨rfl, rfl, rfl⟩
  refine ⟨?_, ?_, ?_⟩
  · rw [← hc.1, g1]
    rfl
  · have := g2.pos
    rw [← hc.2.1]
    omega
  · have hr := g2.rest
    rw [hc.2.1, hc.2.2] at hr
    rw [hr]
    rw [g2.data2]

/-- Four bytes read before, and a string that is cut short. -/
example : (decode .str (.str []) { data := [9, 9, 9, 9, 3, 0, 0, 0, 65], pos := 4, cur := some .be, enc := .borsh }).1 =
    .err .notEnough ∧ unmarshal .borsh .str (.str []) [3, 0, 0, 0, 65] = .err .notEnough ∧
    (decode .str (.str []) { data := [9, 9, 9, 9, 3, 0, 0, 0, 65], pos := 4, cur := some .be, enc := .borsh }).2.pos = 8 := by
  exact ⟨rfl, rfl, rfl⟩

/-! ### C89 -/

/-- A struct whose tags name neither a byte order nor a length: its fields in turn, up to the first that fails. -/
theorem C89_struct (e : Encoding) (he : e.valid = true) (fs : Fields) (vs : List Val) (hp : plainTags fs = true)
    (hb : ¬ (e = .borsh ∧ fs.isEnum = true)) (hl : vs.length = fs.length) :
    marshal e (.struct fs) (.struct vs) = inSeries (fieldParts e fs vs) := by
  refine marshal_of he (Does.set ?_ _)
  simp only [encCore, encStruct]
  rw [if_neg hb]
  exact fields_does he fs vs hp hl

/-- A struct with an optional field, an unsupported field and another one. -/
example : plainTags (.cons { name := [65], exported := true, tag := { option := true } } (.uint .w16 false)
      (.cons { name := [66], exported := true } .plainInt (.cons { name := [67], exported := true } .bool .nil))) = true ∧
    inSeries (fieldParts .borsh (.cons { name := [65], exported := true, tag := { option := true } } (.uint .w16 false)
      (.cons { name := [66], exported := true } .plainInt (.cons { name := [67], exported := true } .bool .nil)))
      [.uint 513, .int 7, .bool true]) = (.err .unsupported, [1, 1, 2]) := by decide +kernel

/-- A slice: the length, then its elements in turn. -/
theorem C89_slice (e : Encoding) (he : e.valid = true) (t : Ty) (hu : t.uintKind = none) (xs : Option (List Val))
    (hl : (xs.getD []).length ≤ maxLen e) :
    marshal e (.slice t) (.seq xs) = inSeries ((.ok (), lenPrefix e (xs.getD []).length) :: (xs.getD []).map (marshal e t)) := by
  refine marshal_of he (Does.set ?_ _)
  simp only [encCore, hu]
  exact (writeSeqLen_w he _ hl).does.series (Does.forIndex (fun x => does_core he t x) _)

/-- The third of four elements is a nil pointer to a library type, which panics. -/
example : marshal .bin (.slice (.ptr (.lib .bool))) (.seq (some [.ptr (some (.bool true)), .ptr (some (.bool false)), .ptr none,
    .ptr (some (.bool true))])) = (.panic, [4, 1, 0]) := by decide +kernel

/-- An array: its elements in turn. -/
theorem C89_array (e : Encoding) (he : e.valid = true) (t : Ty) (hu : t.uintKind = none) (xs : List Val) :
    marshal e (.array xs.length t) (.arr xs) = inSeries (xs.map (marshal e t)) := by
  refine marshal_of he (Does.set ?_ _)
  simp only [encCore, hu]
  exact Does.forIndex (fun x => does_core he t x) _

example : marshal .borsh (.array 2 .f32) (.arr [.float 0x3F800000, .float 0x7FC00000]) = (.err .nan, [0, 0, 0x80, 0x3F]) := by
  decide +kernel

/-- A map: the number of entries, then keys and values in turn, sorted by key in Borsh. -/
theorem C89_map (e : Encoding) (he : e.valid = true) (k t : Ty) (m : Option (List (Val × Val)))
    (hl : (m.getD []).length ≤ maxLen e) (hs : e = .borsh → orderedKey k = true)
    (hd : (m.getD []).Pairwise fun x y => k.keyEq x.1 y.1 = false)
    (hk : ∀ x ∈ m.getD [], k.keyEq x.1 x.1 = true ∧ Encodable e k none x.1) :
    marshal e (.map k t) (.map m) = inSeries ((.ok (), lenPrefix e (m.getD []).length) :: entryParts e k t (entries e k (m.getD []))) := by
  refine marshal_of he (Does.set ?_ _)
  simp only [encCore]
  have hlen : (entries e k (m.getD [])).length = (m.getD []).length := (entries_perm e k _).length_eq
  intro s hse hsn
  rw [M.bind_ok (entries_w (e := e) k (m.getD []) hs hd hk s)]
  have hw := (writeSeqLen_w he (entries e k (m.getD [])).length (by omega)).does
  rw [hlen] at hw
  refine Does.series (hlen ▸ hw) (f := fun _ => forEachM _ _) (Does.forEach _ fun x hx => ?_) s hse hsn
  have hx' := hk x ((entries_perm e k _).mem_iff.mp hx)
  have h1 := does_core he k x.1
  have h2 := does_core he t x.2
  rw [← inSeries_one (marshal e t x.2)] at h2
  simp only [if_pos (found_of_keyEq k x.1 hx'.1)]
  exact h1.series (f := fun _ => setCurE .le >>= fun _ => encCore e t {} x.2) h2

/-- In Borsh the entry with key 1 goes first although it comes last; its value is a NaN. -/
example : marshal .borsh (.map (.uint .w8 false) .f32) (.map (some [(.uint 2, .float 0), (.uint 1, .float 0x7FC00000)])) =
    (.err .nan, [2, 0, 0, 0, 1]) := by decide +kernel

/-- A pointer to something that is not of a library type: what it points at.  A nil pointer is written as the zero value in
Borsh and not at all otherwise. -/
theorem C89_pointer (e : Encoding) (he : e.valid = true) (t : Ty) (ha : t.asLib = none) :
    (∀ x, marshal e (.ptr t) (.ptr (some x)) = marshal e t x) ∧
    marshal e (.ptr t) (.ptr none) = if e = .borsh then marshal e t t.zero else (.ok (), []) := by
  constructor
  · intro x
    refine marshal_of he (Does.set ?_ _)
    simp only [encCore, ha]
    by_cases hb : e = .borsh
    · rw [if_pos hb]
      exact does_core he t x
    · rw [if_neg hb]
      exact does_core he t x
  · refine marshal_of he (Does.set ?_ _)
    simp only [encCore, ha]
    by_cases hb : e = .borsh
    · rw [if_pos hb, if_pos hb]
      exact does_core he t _
    · rw [if_neg hb, if_neg hb]
      exact (Does.pure e).set _

/-- A nil pointer to a type without an encoding. -/
example : marshal .borsh (.ptr (.array 1 .other)) (.ptr none) = (.err .unsupported, []) ∧
    marshal .bin (.ptr (.array 1 .other)) (.ptr none) = (.ok (), []) := by decide +kernel

end Verif.Props
