import Verif.Props.Structs
import Verif.Proofs.LibAt
import Verif.Proofs.Fill
/-!
# C43, C44, C57, C58, C62: library types, byte-order tags, nil pointers, zero-size elements
-/
set_option linter.unusedSimpArgs false
namespace Verif.Props
open Spec

theorem encodable_struct {e : Encoding} {fs : Fields} (h : ¬ (e = .borsh ∧ fs.isEnum = true)) (n : Option Int) (vs : List Val) :
    Encodable e (.struct fs) n (.struct vs) ↔ EncodableFields e fs [] vs := by
  simp only [Encodable, if_neg h]

theorem returns_struct {e : Encoding} {fs : Fields} (h : ¬ (e = .borsh ∧ fs.isEnum = true)) (b : Bool) (vs : List Val) :
    Returns e (.struct fs) b (.struct vs) ↔ ReturnsFields e fs [] false vs := by
  simp only [Returns, if_neg h]

/-! ### C62 -/

/-- C62: every library type, every representable value, in both byte orders, whatever follows.  `LibOrder` says which byte
order the call uses: the one of the enclosing field, or the value's own `Endianness` for the 128-bit types outside any
field; the 64-bit types need an enclosing field (see `C62_violated`). -/
theorem C62_roundtrip_partial {e : Encoding} (he : e.valid = true) (l : Lib) (hl : l ≠ .emptyVariant) (v : Val) (h : LibEnc e l v)
    (hr : LibRet e l v) (o : Order) :
    ∃ bs : Bytes, (∀ s : Enc, s.enc = e → NoFail s → LibOrder l s.cur v.endianness o → Emits (marshalLib l v) s bs) ∧
      ∀ (cur : Option Order) (old : Val) (pre post : Bytes), LibOrder l cur old.endianness o →
        ∃ w, unmarshalLib l old (decAt e cur pre (bs ++ post)) = (.ok w, decAt e cur (pre ++ bs) post) ∧ SameLib v w := by
  refine ⟨libWire e l o v, fun s h1 h2 h3 => marshalLib_at he l o v h s h1 h2 h3, fun cur old pre post hc => ⟨copyLib v, ?_, ?_⟩⟩
  · have := unmarshalLib_at he l o v old h hr cur hc (decAt e cur pre (libWire e l o v ++ post)) post rfl (decAt_ok _ _ _ _)
      (decAt_rest _ _ _ _) rfl
    rw [this, decAt_adv]
    cases l <;> first | rfl | exact absurd rfl hl
  · cases v <;> simp [copyLib, SameLib]

/-- C62 is false for `JSONFloat64`, `Int64` and `Uint64` outside a field: on a new encoder or decoder their methods panic,
whatever the value and the bytes. -/
theorem C62_violated (e : Encoding) :
    (∀ z, (marshalLib .int64 (.int z) (Enc.new e)).1 = .panic) ∧
    (∀ n, (marshalLib .uint64 (.uint n) (Enc.new e)).1 = .panic) ∧
    (∀ n, (marshalLib .jsonFloat64 (.float n) (Enc.new e)).1 = .panic) ∧
    (∀ old b, (unmarshalLib .int64 old (Dec.new b e)).1 = .panic ∧ (unmarshalLib .uint64 old (Dec.new b e)).1 = .panic ∧
      (unmarshalLib .jsonFloat64 old (Dec.new b e)).1 = .panic) := by
  refine ⟨fun _ => rfl, fun _ => rfl, fun _ => rfl, fun _ _ => ⟨rfl, rfl, rfl⟩⟩

example : LibEnc .bin .uint128 (.u128 5 6 (some .be)) ∧ LibRet .bin .uint128 (.u128 5 6 (some .be)) ∧
    LibOrder .uint128 none (some .be) .be := ⟨by simp [LibEnc], trivial, rfl⟩
example : LibEnc .borsh .varint16 (.int (-300)) ∧ LibRet .borsh .varint16 (.int (-300)) := ⟨by simp [LibEnc], trivial⟩

/-! ### C43 -/

/-- C43, the part that holds: in Bin and CompactU16 an optional pointer to a library type round trips, nil included. -/
theorem C43_pointer_partial {e : Encoding} (he : e = .bin ∨ e = .compactU16) (m : FieldMeta) (hm : IsOptional m) (l : Lib)
    (p : Option Val) (h : ∀ v, p = some v → LibEnc e l v ∧ LibRet e l v) :
    unmarshal e (.struct (.cons m (.ptr (.lib l)) .nil)) (Ty.zero (.struct (.cons m (.ptr (.lib l)) .nil)))
        (marshal e (.struct (.cons m (.ptr (.lib l)) .nil)) (.struct [.ptr p])).2 = .ok (.struct [.ptr (p.map copyLib)]) := by
  have hv : e.valid = true := by rcases he with rfl | rfl <;> rfl
  have hb : ¬ e = .borsh := by rcases he with rfl | rfl <;> simp
  have hS : Supported e (.struct (.cons m (.ptr (.lib l)) .nil)) (.struct [.ptr p]) := by
    constructor
    · rw [encodable_struct (by simp [hb])]
      simp only [EncodableFields, hm.noskip, announce, hm.nosizeof, Bool.false_eq_true, if_false, if_true, and_true]
      intro _ hna
      cases p with
      | none => exact absurd ⟨rfl, .inl hm.option⟩ hna
      | some v => simp only [Encodable]; exact (h v rfl).1
    · rw [returns_struct (by simp [hb])]
      simp only [ReturnsFields, hm.noskip, hm.exported, hm.noext, hm.nosizeof, hm.option, hm.nocoption, hb, Bool.false_eq_true, if_false,
        if_true, false_imp_iff, true_and, and_true, implies_true, ne_eq, not_true_eq_false, Ty.asLib, true_imp_iff]
      intro hna
      cases p with
      | none => exact absurd ⟨rfl, .inl hm.option⟩ hna
      | some v => simp only [Returns, hb, false_imp_iff, true_and]; exact (h v rfl).2
  rw [C38_roundtrip hv m hm _ _ (by simp [hb]) hS]
  cases p with
  | none => simp [Ty.isZero, Ty.zero]
  | some v => simp [Ty.isZero, copy]

/-- C43 is false.  In Bin and CompactU16 decoding an optional field whose type is itself a library type always panics.  In
Borsh the flag is written but not read back. -/
theorem C43_violated :
    (∀ (e : Encoding), e = .bin ∨ e = .compactU16 → ∀ (m : FieldMeta), IsOptional m → ∀ (l : Lib) (old : Val) (b : Bytes),
      unmarshal e (.struct (.cons m (.lib l) .nil)) (.struct [old]) b = .panic) ∧
    (let t := Ty.struct (.cons { name := [65], tag := { option := true } } (.lib .uint64) .nil);
      marshal .borsh t (.struct [.uint 5]) = (.ok (), [1, 5, 0, 0, 0, 0, 0, 0, 0]) ∧
      unmarshal .borsh t t.zero [1, 5, 0, 0, 0, 0, 0, 0, 0] = .ok (.struct [.uint 1281])) ∧
    (let t := Ty.struct (.cons { name := [65], tag := { option := true } } (.ptr (.lib .uint64)) .nil);
      marshal .borsh t (.struct [.ptr (some (.uint 5))]) = (.ok (), [1, 5, 0, 0, 0, 0, 0, 0, 0]) ∧
      unmarshal .borsh t t.zero [1, 5, 0, 0, 0, 0, 0, 0, 0] = .ok (.struct [.ptr (some (.uint 1281))])) := by
  refine ⟨?_, ⟨by decide +kernel, by decide +kernel⟩, by decide +kernel, by decide +kernel⟩
  intro e he m hm l old b
  have hv : ¬ e = .other := by rcases he with rfl | rfl <;> simp
  have hb : ¬ e = .borsh := by rcases he with rfl | rfl <;> simp
  have hx2 : extensionEnds m = pure false := by unfold extensionEnds; rw [if_neg (by simp [hm.noext])]
  have hf : ∀ core d, (decField e (.lib l) (fieldOpt m []) old core d).1 = .panic := by
    intro core d
    unfold decField
    rw [if_pos (show (fieldOpt m []).optional = true from hm.option), if_pos (by simp [Ty.asLib])]
    rfl
  unfold unmarshal decode
  rw [M.bind_apply, M.get_apply]
  simp only []
  rw [if_neg (by simpa [Dec.new] using hv), show (Dec.new b e).enc = e from rfl]
  simp only [decCore, decStruct, hb, false_and, if_false, Val.fields, decFields, hm.noskip, hm.noext, hm.exported, hx2, Bool.false_eq_true,
    Bool.and_false, Bool.not_false, Bool.and_true, Bool.not_true, Bool.or_false, setCurD, M.bind_apply, M.modify_apply, M.pure_apply]
  generalize hd : ({ Dec.new b e with cur := some Order.le } : Dec) = d
  have := hf (unmarshalLib l old) d
  cases hr : decField e (.lib l) (fieldOpt m []) old (unmarshalLib l old) d with
  | mk res d' =>
    rw [hr] at this
    simp only at this
    subst this
    rfl

/-! ### C44 -/

/-- C44, the part that holds, format: in Bin and CompactU16 a field tagged `big` is written big-endian: exactly the bytes
in reverse order. -/
theorem C44_format_partial {e : Encoding} (he : e = .bin ∨ e = .compactU16) (m : FieldMeta) (hm : IsPlain m) (hs : m.tag.sizeOf = [])
    (ho : m.tag.order = .be) :
    (∀ w nm n, n < 2 ^ w.bits → marshal e (.struct (.cons m (.uint w nm) .nil)) (.struct [.uint n]) = (.ok (), (fixed .le w.bytes n).reverse)) ∧
    (∀ w nm z, -2 ^ (w.bits - 1) ≤ z → z < 2 ^ (w.bits - 1) → marshal e (.struct (.cons m (.int w nm) .nil)) (.struct [.int z]) =
      (.ok (), (fixed .le w.bytes (twos w.bits z)).reverse)) ∧
    (∀ n, n < 2 ^ 32 → ¬ signalling32 n → marshal e (.struct (.cons m .f32 .nil)) (.struct [.float n]) = (.ok (), (fixed .le 4 n).reverse)) ∧
    (∀ n, n < 2 ^ 64 → marshal e (.struct (.cons m .f64 .nil)) (.struct [.float n]) = (.ok (), (fixed .le 8 n).reverse)) ∧
    (∀ n, n < 2 ^ 64 → marshal e (.struct (.cons m (.lib .uint64) .nil)) (.struct [.uint n]) = (.ok (), (fixed .le 8 n).reverse)) ∧
    (∀ n, n < 2 ^ 64 → marshal e (.struct (.cons m (.lib .jsonFloat64) .nil)) (.struct [.float n]) = (.ok (), (fixed .le 8 n).reverse)) ∧
    (∀ z, -2 ^ 63 ≤ z → z < 2 ^ 63 → marshal e (.struct (.cons m (.lib .int64) .nil)) (.struct [.int z]) =
      (.ok (), (fixed .le 8 (twos 64 z)).reverse)) ∧
    (∀ l, l = .uint128 ∨ l = .int128 ∨ l = .float128 → ∀ lo hi en, lo < 2 ^ 64 → hi < 2 ^ 64 →
      marshal e (.struct (.cons m (.lib l) .nil)) (.struct [.u128 lo hi en]) = (.ok (), (fixed .le 16 (hi * 2 ^ 64 + lo)).reverse)) := by
  have hv : e.valid = true := by rcases he with rfl | rfl <;> rfl
  have hb : ¬ e = .borsh := by rcases he with rfl | rfl <;> simp
  have key : ∀ t v bs, Encodable e t none v → wire e t .be false v = bs →
      marshal e (.struct (.cons m t .nil)) (.struct [v]) = (.ok (), bs) := by
    intro t v bs h hw
    rw [marshal_wire hv]
    · rw [wire_struct _ _ _ (by simp [hb])]
      simp [wireFields, hm.noskip, hm.exported, announced, hs, fieldWire, hm.nooption, hm.nocoption, ho, hw]
    · rw [encodable_struct (by simp [hb])]
      simp only [EncodableFields, hm.noskip, announce, hs, Bool.false_eq_true, if_false, if_true, and_true, lookupSize, List.find?,
        Option.map_none]
      exact fun _ _ => h
  refine ⟨fun w nm n h => key _ _ _ ?_ ?_, fun w nm z h1 h2 => key _ _ _ ?_ ?_, fun n h1 h2 => key _ _ _ ?_ ?_, fun n h => key _ _ _ ?_ ?_,
    fun n h => key _ _ _ ?_ ?_, fun n h => key _ _ _ ?_ ?_, fun z h1 h2 => key _ _ _ ?_ ?_, fun l hl lo hi en h1 h2 => key _ _ _ ?_ ?_⟩
  · simpa only [Encodable] using h
  · simp only [wire, ord, if_neg hb]; rfl
  · simp only [Encodable]; exact ⟨h1, h2⟩
  · simp only [wire, ord, if_neg hb]; rfl
  · simp only [Encodable, hb]; exact ⟨h1, h2, by simp⟩
  · simp only [wire, ord, if_neg hb]; rfl
  · simp only [Encodable, hb]; exact ⟨h, by simp⟩
  · simp only [wire, ord, if_neg hb]; rfl
  · simp only [Encodable]; exact h
  · simp only [wire, libWire]; rfl
  · simp only [Encodable, LibEnc, hb]; exact ⟨h, by simp⟩
  · simp only [wire, libWire]; rfl
  · simp only [Encodable]; exact ⟨h1, h2⟩
  · simp only [wire, libWire]; rfl
  · rcases hl with rfl | rfl | rfl <;> (simp only [Encodable]; exact ⟨h1, h2⟩)
  · rcases hl with rfl | rfl | rfl <;> (simp only [wire, libWire]; rfl)

/-- C44, the part that holds, round trip: in Bin and CompactU16, whatever the byte-order tag and the type. -/
theorem C44_roundtrip_partial {e : Encoding} (he : e = .bin ∨ e = .compactU16) (m : FieldMeta) (hm : IsPlain m) (hs : m.tag.sizeOf = [])
    (t : Ty) (v : Val) (h : Supported e t v) :
    unmarshal e (.struct (.cons m t .nil)) (Ty.zero (.struct (.cons m t .nil))) (marshal e (.struct (.cons m t .nil)) (.struct [v])).2 =
      .ok (.struct [copy e t v]) := by
  have hv : e.valid = true := by rcases he with rfl | rfl <;> rfl
  have hb : ¬ e = .borsh := by rcases he with rfl | rfl <;> simp
  have hS : Supported e (.struct (.cons m t .nil)) (.struct [v]) := by
    constructor
    · rw [encodable_struct (by simp [hb])]
      simp only [EncodableFields, hm.noskip, announce, hs, Bool.false_eq_true, if_false, if_true, and_true, lookupSize, List.find?,
        Option.map_none]
      exact fun _ _ => h.1
    · rw [returns_struct (by simp [hb])]
      simp only [ReturnsFields, hm.noskip, hm.exported, hm.noext, hs, hm.nooption, hm.nocoption, hb, Bool.false_eq_true, if_false,
        if_true, false_imp_iff, true_and, and_true, implies_true, ne_eq, not_true_eq_false, announced, List.contains_nil]
      exact fun _ => h.2
  rw [marshal_wire hv _ _ hS.1]
  have := unmarshal_wire hv _ _ hS []
  rw [List.append_nil] at this
  simp only []
  rw [this]
  simp [copy, hb, copyFields, hm.noskip, hm.exported, absent, hm.nooption, hm.nocoption]

/-- C44 is false in Borsh for library types: the encoder honours the tag, the decoder uses the order of the last field that
was not of a library type. -/
theorem C44_violated :
    (let t := Ty.struct (.cons { name := [66], tag := { order := .be } } (.lib .uint128) .nil);
      marshal .borsh t (.struct [.u128 1 0 none]) = (.ok (), [0, 0, 0, 0, 0, 0, 0, 0, 0, 0, 0, 0, 0, 0, 0, 1]) ∧
      unmarshal .borsh t t.zero [0, 0, 0, 0, 0, 0, 0, 0, 0, 0, 0, 0, 0, 0, 0, 1] = .ok (.struct [.u128 0 (2 ^ 56) none])) ∧
    (let t := Ty.struct (.cons { name := [65], tag := { order := .be } } (.uint .w8 false) (.cons { name := [66] } (.lib .uint128) .nil));
      marshal .borsh t (.struct [.uint 7, .u128 1 0 none]) = (.ok (), [7, 1, 0, 0, 0, 0, 0, 0, 0, 0, 0, 0, 0, 0, 0, 0, 0]) ∧
      unmarshal .borsh t t.zero [7, 1, 0, 0, 0, 0, 0, 0, 0, 0, 0, 0, 0, 0, 0, 0, 0] = .ok (.struct [.uint 7, .u128 0 (2 ^ 56) none])) := by
  refine ⟨⟨?_, ?_⟩, ?_, ?_⟩ <;> decide +kernel

example : IsPlain { name := [65], tag := { order := .be } } ∧ Supported .bin (.lib .int64) (.int (-2)) :=
  ⟨⟨rfl, rfl, rfl, rfl, rfl⟩, by simp [Encodable, LibEnc], by simp [Returns, LibRet]⟩

/-! ### C57 -/

/-- C57, the part that holds: in Borsh a nil pointer (outside optional fields, complex enums, map keys, and pointers to
library types) is written exactly like a pointer to the zero value, so if the value so completed round trips the bytes
decode to it. -/
theorem C57_borsh_partial (t : Ty) (v : Val) :
    marshal .borsh t v = marshal .borsh t (fillNil t v) ∧
    (Supported .borsh t (fillNil t v) →
      ∃ b w, marshal .borsh t v = (.ok (), b) ∧ unmarshal .borsh t t.zero b = .ok w ∧ Same .borsh t (fillNil t v) w) := by
  have h : marshal .borsh t v = marshal .borsh t (fillNil t v) := by
    unfold marshal
    rw [encode_fill t v (Enc.new .borsh) rfl]
  exact ⟨h, fun hs => by rw [h]; exact roundtrip rfl t _ hs⟩

/-- C57 is false: in Bin and CompactU16 a nil pointer writes nothing, so the bytes decode to another value or not at all;
in Borsh the same happens for pointers to library types. -/
theorem C57_violated :
    (∀ e, e = .bin ∨ e = .compactU16 →
      let t := Ty.struct (.cons { name := [65] } (.ptr (.uint .w8 false)) (.cons { name := [66] } (.slice (.uint .w8 false)) .nil));
      marshal e t (.struct [.ptr none, .seq (some [.uint 0])]) = (.ok (), [1, 0]) ∧
      unmarshal e t t.zero [1, 0] = .ok (.struct [.ptr (some (.uint 1)), .seq (some [])])) ∧
    (∀ e, e = .bin ∨ e = .compactU16 →
      marshal e (.ptr (.uint .w8 false)) (.ptr none) = (.ok (), []) ∧
      unmarshal e (.ptr (.uint .w8 false)) (.ptr none) [] = .err .notEnough) ∧
    (marshal .borsh (.ptr (.lib .bool)) (.ptr none) = (.ok (), []) ∧
      unmarshal .borsh (.ptr (.lib .bool)) (.ptr none) [] = .err .notEnough) := by
  refine ⟨?_, ?_, ?_, ?_⟩
  · rintro e (rfl | rfl) <;> constructor <;> decide +kernel
  · rintro e (rfl | rfl) <;> constructor <;> decide +kernel
  · decide +kernel
  · decide +kernel

example : fillNil (.struct (.cons { name := [65] } (.ptr (.ptr .bool)) .nil)) (.struct [.ptr none]) =
    .struct [.ptr (some (.ptr (some (.bool false))))] := by
  simp [fillNil, fillNils, Fields.isEnum, Ty.asLib, Ty.zero]
example : Supported .borsh (.struct (.cons { name := [65] } (.ptr (.ptr .bool)) .nil)) (.struct [.ptr (some (.ptr (some (.bool false))))]) := by
  constructor
  · simp [Encodable, EncodableFields, announce, Fields.isEnum]
  · simp [Returns, ReturnsFields, Fields.isEnum, announced]

/-! ### C58 -/

/-- Elements that occupy no bytes. -/
def ZeroSize (e : Encoding) (t : Ty) (xs : List Val) : Prop :=
  t.uintKind = none ∧ ∀ x ∈ xs, Encodable e t none x ∧ Returns e t false x ∧ wire e t .le false x = []

theorem zeroSize_marshal {e : Encoding} (he : e.valid = true) (t : Ty) (xs : List Val) (hz : ZeroSize e t xs)
    (hn : xs.length ≤ readMax e) : marshal e (.slice t) (.seq (some xs)) = (.ok (), lenPrefix e xs.length) := by
  have hm : xs.length ≤ maxLen e := by
    refine Nat.le_trans hn ?_
    cases e <;> simp [Encoding.valid] at he <;> decide
  rw [marshal_wire he]
  · simp only [wire, Option.getD_some, hz.1, Bool.false_eq_true, if_false]
    rw [List.flatMap_eq_nil_iff.mpr fun x hx => (hz.2 x hx).2.2, List.append_nil]
  · simp only [Encodable, Option.getD_some, hz.1]
    exact ⟨hm, fun x hx => (hz.2 x hx).1⟩

theorem zeroSize_unmarshal {e : Encoding} (he : e.valid = true) (t : Ty) (xs : List Val) (hz : ZeroSize e t xs)
    (h1 : 1 ≤ xs.length) (hn : xs.length ≤ readMax e) (tail : Bytes) :
    unmarshal e (.slice t) (.seq none) (lenPrefix e xs.length ++ tail) =
      if tail.length < xs.length then .err .eof else .ok (.seq (some (xs.map (copy e t)))) := by
  have hne : ¬ e = .other := by intro h; rw [h] at he; cases he
  have hr := (readSeqLen_r he xs.length hn).consumes (some .le) [] tail
  rw [List.nil_append] at hr
  have hcur : setCurD .le (Dec.new (lenPrefix e xs.length ++ tail) e) = (.ok (), decAt e (some .le) [] (lenPrefix e xs.length ++ tail)) := by
    simp [setCurD, Dec.new, decAt]
  have hel : ∀ x ∈ xs, RD e (do setCurD .le; decCore e t {} t.zero) [] (copy e t x) := by
    intro x hx
    obtain ⟨a1, a2, a3⟩ := hz.2 x hx
    have := RDat.set (fun _ => rfl) (decCore_r he t {} x (fun _ => rfl) a1 a2)
    rw [show wire e t ({} : Opt).order ({} : Opt).sizeOf.isSome x = [] from a3] at this
    exact this
  have hrep := RD.repeat (g := fun _ => []) (h := fun x => copy e t x) xs hel
  rw [List.flatMap_eq_nil_iff.mpr fun x _ => rfl] at hrep
  have hrem : (decAt e (some .le) (lenPrefix e xs.length) tail).remaining = tail.length := by
    have := Dec.rest_length (decAt_ok e (some .le) (lenPrefix e xs.length) tail)
    rw [decAt_rest] at this
    exact this.symm
  obtain ⟨c, -, hc⟩ := hrep (decAt e (some .le) (lenPrefix e xs.length) tail) tail rfl (decAt_ok _ _ _ _) (decAt_rest _ _ _ _)
    (fun _ => rfl)
  unfold unmarshal decode
  rw [M.bind_apply, M.get_apply]
  simp only []
  rw [if_neg (by simpa [Dec.new] using hne), show (Dec.new (lenPrefix e xs.length ++ tail) e).enc = e from rfl, M.bind_ok hcur]
  simp only [decCore, hz.1]
  rw [M.bind_ok hr, M.bind_ok (show (pure (xs.length : Int) : DM Int) _ = (.ok (xs.length : Int), decAt e (some .le) (lenPrefix e xs.length) tail) from rfl),
    if_neg (by omega), M.bind_ok (M.get_apply _), hrem]
  by_cases ht : tail.length < xs.length
  · rw [if_pos (by omega), if_pos ht]; rfl
  · rw [if_neg (by omega), if_neg ht, Int.toNat_natCast, M.bind_ok hc]; rfl

/-- C58 is false: a non-empty slice of elements that occupy no bytes, alone in its buffer, is refused. -/
theorem C58_violated {e : Encoding} (he : e.valid = true) (t : Ty) (xs : List Val) (hz : ZeroSize e t xs) (h1 : 1 ≤ xs.length)
    (hn : xs.length ≤ readMax e) :
    (marshal e (.slice t) (.seq (some xs))).1 = .ok () ∧
    unmarshal e (.slice t) (.seq none) (marshal e (.slice t) (.seq (some xs))).2 = .err .eof := by
  rw [zeroSize_marshal he t xs hz hn]
  refine ⟨rfl, ?_⟩
  have := zeroSize_unmarshal he t xs hz h1 hn []
  rw [List.append_nil] at this
  rw [this, if_pos (show ([] : Bytes).length < xs.length from h1)]

/-- C58, the part that holds: with at least as many bytes after the slice as it has elements, it round trips. -/
theorem C58_followed_partial {e : Encoding} (he : e.valid = true) (t : Ty) (xs : List Val) (hz : ZeroSize e t xs)
    (hn : xs.length ≤ readMax e) (h1 : 1 ≤ xs.length) (tail : Bytes) (ht : xs.length ≤ tail.length) :
    unmarshal e (.slice t) (.seq none) ((marshal e (.slice t) (.seq (some xs))).2 ++ tail) = .ok (.seq (some (xs.map (copy e t)))) := by
  rw [zeroSize_marshal he t xs hz hn]
  simp only []
  rw [zeroSize_unmarshal he t xs hz h1 hn tail, if_neg (by omega)]

example : ZeroSize .bin (.struct .nil) [.struct [], .struct []] := by
  refine ⟨rfl, fun x hx => ?_⟩
  simp at hx
  subst hx
  simp [Encodable, Returns, wire, EncodableFields, ReturnsFields, wireFields, Fields.isEnum]
example : unmarshal .borsh (.slice (.lib .emptyVariant)) (.seq none) [2, 0, 0, 0, 9, 9] = .ok (.seq (some [.struct [], .struct []])) := by
  decide +kernel

end Verif.Props
