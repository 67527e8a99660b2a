import Verif.Proofs.Zero
import Verif.Props.Robust
import Verif.Proofs.Append
/-!
# C37–C41: struct fields and their tags
-/
set_option linter.unusedSimpArgs false
namespace Verif.Props
open Spec

/-! ### C37 -/

/-- C37, encoding: two values that differ only in skipped fields and in unexported fields without a `sizeof` tag (at any
depth, the same optional fields being zero) give the same outcome, the same bytes in the same writes, the same state. -/
theorem C37_encode_partial (t : Ty) (x y : Val) (s : Enc) (h : SameSent s.enc t x y) : encode t x s = encode t y s :=
  encode_same t x y s h

/-- C37, decoding: whatever the bytes, if `Decode` succeeds the skipped and unexported fields (at any depth) hold what they
held before. -/
theorem C37_decode (e : Encoding) (t : Ty) (old v : Val) (b : Bytes) (h : unmarshal e t old b = .ok v) :
    Untouched e t old v := by
  unfold unmarshal at h
  cases hr : decode t old (Dec.new b e) with
  | mk res d' =>
    rw [hr] at h
    simp only at h
    subst h
    exact decode_untouched t old v (Dec.new b e) d' hr

/-- C37 is false in full: an unexported field tagged `sizeof` decides how many elements are written, and a skipped field
inside an optional struct decides whether the struct is written. -/
theorem C37_violated :
    (∃ (t : Ty) (n m : Nat) (v : Val), t = .struct (.cons { name := [110], exported := false, tag := { sizeOf := [66] } }
        (.uint .w8 false) (.cons { name := [66] } (.slice (.uint .w8 false)) .nil)) ∧
      (marshal .bin t (.struct [.uint n, v])).1 = .ok () ∧ (marshal .bin t (.struct [.uint m, v])).1 = .ok () ∧
      (marshal .bin t (.struct [.uint n, v])).2 ≠ (marshal .bin t (.struct [.uint m, v])).2) ∧
    (∃ (t : Ty) (n m : Nat), t = .struct (.cons { name := [65], tag := { option := true } }
        (.struct (.cons { name := [66], tag := { skip := true } } (.uint .w8 false) .nil)) .nil) ∧
      (marshal .borsh t (.struct [.struct [.uint n]])).1 = .ok () ∧
      (marshal .borsh t (.struct [.struct [.uint m]])).1 = .ok () ∧
      (marshal .borsh t (.struct [.struct [.uint n]])).2 ≠ (marshal .borsh t (.struct [.struct [.uint m]])).2) := by
  refine ⟨⟨_, 1, 2, .seq (some [.uint 7, .uint 8]), rfl, ?_, ?_, ?_⟩, ⟨_, 0, 1, rfl, ?_, ?_, ?_⟩⟩ <;> decide +kernel

/-- Differing in a skipped field behind a pointer inside a slice, and in an unexported field. -/
example : SameSent .borsh
    (.struct (.cons { name := [97], exported := false } .str (.cons { name := [66] } (.slice (.ptr (.struct
      (.cons { name := [67], tag := { skip := true } } .bool (.cons { name := [68] } .bool .nil))))) .nil)))
    (.struct [.str [1], .seq (some [.ptr (some (.struct [.bool true, .bool true]))])])
    (.struct [.str [2], .seq (some [.ptr (some (.struct [.bool false, .bool true]))])]) := by
  simp [SameSent, SameSentFields, All2, Ty.uintKind, Ty.kind, Fields.isEnum]

example : unmarshal .bin (.struct (.cons { name := [65], tag := { skip := true } } .bool (.cons { name := [66] } .bool .nil)))
    (.struct [.bool true, .bool false]) [1] = .ok (.struct [.bool true, .bool true]) := by decide +kernel

/-! ### C38 -/

/-- An ordinary exported field tagged `optional` (and nothing else but possibly a byte order). -/
structure IsOptional (m : FieldMeta) : Prop where
  noskip : m.tag.skip = false
  exported : m.exported = true
  option : m.tag.option = true
  nocoption : m.tag.coption = false
  nosizeof : m.tag.sizeOf = []
  noext : m.tag.binExt = false

theorem wire_struct (e : Encoding) (fs : Fields) (vs : List Val) (h : ¬ (e = .borsh ∧ fs.isEnum = true)) (o : Order) (s : Bool) :
    wire e (.struct fs) o s (.struct vs) = wireFields e fs [] vs := by
  simp only [wire, if_neg h]

/-- C38, format: flag, then the value unless it is zero, then the other fields. -/
theorem C38_format {e : Encoding} (he : e.valid = true) (m : FieldMeta) (hm : IsOptional m) (t : Ty) (fs : Fields) (v : Val)
    (vs : List Val) (hn : ¬ (e = .borsh ∧ (Fields.cons m t fs).isEnum = true))
    (h : Encodable e (.struct (.cons m t fs)) none (.struct (v :: vs))) :
    marshal e (.struct (.cons m t fs)) (.struct (v :: vs)) =
      (.ok (), flag e (!t.isZero v) ++ (if t.isZero v then [] else wire e t m.tag.order false v) ++ wireFields e fs [] vs) := by
  rw [marshal_wire he _ _ h, wire_struct e _ _ hn]
  simp only [wireFields, hm.noskip, hm.exported, announced, hm.nosizeof, List.contains_nil, fieldWire, hm.option, hm.nocoption,
    Bool.false_eq_true, and_false, if_false, if_true, true_and]
  cases t.isZero v <;> simp

/-- C38 (and C39), absent values: the field is absent exactly when its value is the zero value of its type, up to the sign
of zero floats. -/
theorem C38_zero {N : Nat} (t : Ty) (v : Val) (hs : Shaped N t v) (hf : FloatSized t v) :
    t.isZero v = true ↔ plus t v = t.zero := isZero_iff t v hs hf

/-- Meets the hypotheses: a struct of a negative zero and an empty array is absent, an empty non-nil slice is not. -/
example : Shaped 0 (.struct (.cons { name := [65] } .f32 (.cons { name := [66] } (.array 0 .bool) .nil)))
      (.struct [.float 0x80000000, .arr []]) ∧
    FloatSized (.struct (.cons { name := [65] } .f32 (.cons { name := [66] } (.array 0 .bool) .nil)))
      (.struct [.float 0x80000000, .arr []]) ∧
    Ty.isZero (.struct (.cons { name := [65] } .f32 (.cons { name := [66] } (.array 0 .bool) .nil)))
      (.struct [.float 0x80000000, .arr []]) = true ∧
    Ty.isZero (.slice .bool) (.seq (some [])) = false := by
  refine ⟨by simp [Shaped, ShapedFields], by simp [FloatSized, FloatSizedFields], by decide +kernel, rfl⟩

/-- Flag sizes: four bytes in Bin, one in the others. -/
theorem C38_flag (b : Bool) : flag .bin b = [if b then 1 else 0, 0, 0, 0] ∧ flag .borsh b = [if b then 1 else 0] ∧
    flag .compactU16 b = [if b then 1 else 0] := by
  cases b <;> decide

theorem decode_single {e : Encoding} (hv : e.valid = true) (m : FieldMeta) (t : Ty) (old v : Val) (d d' : Dec)
    (hd : d.enc = e) (hn : ¬ (e = .borsh ∧ (Fields.cons m t .nil).isEnum = true))
    (hs : m.tag.skip = false) (hx : m.exported = true) (hsz : m.tag.sizeOf = []) (hb : m.tag.binExt = false)
    (hl : (if e = .borsh then t.directLib else none) = none)
    (h : decField e t (fieldOpt m []) old (decCore e t (fieldOpt m []) old) { d with cur := some .le } = (.ok v, d')) :
    decode (.struct (.cons m t .nil)) (.struct [old]) d = (.ok (.struct [v]), d') := by
  have hne : ¬ e = .other := by intro h; rw [h] at hv; cases hv
  unfold decode
  rw [M.bind_apply, M.get_apply]
  simp only []
  rw [if_neg (by rw [hd]; exact hne), hd]
  have hx2 : extensionEnds m = pure false := by unfold extensionEnds; rw [if_neg (by simp [hb])]
  simp only [decCore, decStruct, if_neg hn, Val.fields, decFields, hs, hb, hx, hx2, hl, Bool.false_eq_true, if_false,
    Bool.and_false, Bool.not_false, Bool.and_true, Bool.not_true, Bool.or_false, setCurD, M.bind_apply, M.modify_apply, M.pure_apply, h,
    recordSize, if_pos hsz]

/-- C38, decoding an absent field: the field becomes the zero value (nil for pointers), the rest of the buffer is left. -/
theorem C38_absent {e : Encoding} (he : e.valid = true) (m : FieldMeta) (hm : IsOptional m) (t : Ty) (old : Val)
    (hl : t.asLib = none) (hb : e = .borsh → t.directLib = none)
    (hn : ¬ (e = .borsh ∧ (Fields.cons m t .nil).isEnum = true)) (ho : isPtrPtr t = false ∨ old = t.zero)
    (cur : Option Order) (pre tail : Bytes) :
    decode (.struct (.cons m t .nil)) (.struct [old]) (decAt e cur pre (flag e false ++ tail)) =
      (.ok (.struct [t.zero]), decAt e (some m.tag.order) (pre ++ flag e false) tail) := by
  have hav : absentVal t old = t.zero := by
    rcases ho with ho | ho
    · rw [absentVal_kept t old t.zero (by simp [ho]), absentVal_zero]
    · rw [ho, absentVal_zero]
  refine decode_single he m t old t.zero _ _ rfl hn hm.noskip hm.exported hm.nosizeof hm.noext ?_ ?_
  · split
    · exact hb (by assumption)
    · rfl
  · have hflag := readFlag_r (e := e) he false (decAt e (some m.tag.order) pre (flag e false ++ tail)) tail rfl (decAt_ok _ _ _ _) (by simp)
    rw [decAt_adv] at hflag
    unfold decField
    rw [M.bind_ok (show setCurD (fieldOpt m []).order ({ decAt e cur pre (flag e false ++ tail) with cur := some .le } : Dec) =
      (.ok (), decAt e (some m.tag.order) pre (flag e false ++ tail)) from rfl)]
    rw [if_pos (show (fieldOpt m []).optional = true from hm.option), if_neg (by rw [hl]; simp), M.bind_ok hflag,
      if_neg (by simp), hav]
    rfl

/-- C38, round trip of one optional field: zero comes back as zero, anything else as itself. -/
theorem C38_roundtrip {e : Encoding} (he : e.valid = true) (m : FieldMeta) (hm : IsOptional m) (t : Ty) (v : Val)
    (hn : ¬ (e = .borsh ∧ (Fields.cons m t .nil).isEnum = true))
    (h : Supported e (.struct (.cons m t .nil)) (.struct [v])) :
    unmarshal e (.struct (.cons m t .nil)) (Ty.struct (.cons m t .nil)).zero (marshal e (.struct (.cons m t .nil)) (.struct [v])).2 =
      .ok (.struct [if t.isZero v then t.zero else copy e t v]) := by
  rw [marshal_wire he _ _ h.1]
  have := unmarshal_wire he _ _ h []
  rw [List.append_nil] at this
  simp only []
  rw [this]
  simp only [copy, if_neg hn, copyFields, hm.noskip, hm.exported, absent, hm.option, Bool.false_eq_true, false_or, true_or,
    and_true, reduceCtorEq]

/-- Meets the hypotheses: an optional pointer to a big-endian `uint32`, present. -/
example : IsOptional { name := [65], tag := { option := true, order := .be } } ∧
    Supported .bin (.struct (.cons { name := [65], tag := { option := true, order := .be } } (.ptr (.uint .w32 false)) .nil))
      (.struct [.ptr (some (.uint 7))]) := by
  refine ⟨⟨rfl, rfl, rfl, rfl, rfl, rfl⟩, ?_, ?_⟩
  · simp [Encodable, EncodableFields, announce, Fields.isEnum, absent, Ty.isZero, Width.bits, Width.bytes]
  · simp [Returns, ReturnsFields, announced, Ty.asLib, Ty.directLib, absent, Ty.isZero, Fields.isEnum]
example : marshal .bin (.struct (.cons { name := [65], tag := { option := true, order := .be } } (.ptr (.uint .w32 false)) .nil))
    (.struct [.ptr (some (.uint 7))]) = (.ok (), [1, 0, 0, 0, 0, 0, 0, 7]) := by decide +kernel

/-! ### C39 -/

/-- An ordinary exported field tagged `coption`. -/
structure IsCOptional (m : FieldMeta) : Prop where
  noskip : m.tag.skip = false
  exported : m.exported = true
  nooption : m.tag.option = false
  coption : m.tag.coption = true
  nosizeof : m.tag.sizeOf = []
  noext : m.tag.binExt = false

/-- C39, format. -/
theorem C39_format (m : FieldMeta) (hm : IsCOptional m) (t : Ty) (fs : Fields) (v : Val) (vs : List Val)
    (hn : (Fields.cons m t fs).isEnum = false)
    (h : Encodable .borsh (.struct (.cons m t fs)) none (.struct (v :: vs))) :
    marshal .borsh (.struct (.cons m t fs)) (.struct (v :: vs)) =
      (.ok (), (if t.isZero v then [0, 0, 0, 0] else [1, 0, 0, 0] ++ wire .borsh t m.tag.order false v) ++
        wireFields .borsh fs [] vs) := by
  rw [marshal_wire rfl _ _ h, wire_struct _ _ _ (by simp [hn])]
  simp only [wireFields, hm.noskip, hm.exported, announced, hm.nosizeof, List.contains_nil, fieldWire, hm.nooption, hm.coption,
    Bool.false_eq_true, false_and, if_false, if_true, true_and, and_self]
  have h0 : cflag false = [0, 0, 0, 0] := by decide
  have h1 : cflag true = [1, 0, 0, 0] := by decide
  cases t.isZero v <;> simp [h0, h1]

theorem decField_coption (m : FieldMeta) (hm : IsCOptional m) (t : Ty) (old : Val) (core : DM Val) (hl : t.asLib = none)
    (n : Nat) (hlt : n < 2 ^ 32) (cur : Option Order) (pre tail : Bytes) :
    decField .borsh t (fieldOpt m []) old core (decAt .borsh cur pre (fixed .le 4 n ++ tail)) =
      if n > 1 then (.err .coption, decAt .borsh (some m.tag.order) (pre ++ fixed .le 4 n) tail)
      else if n = 0 then (.ok (absentVal t old), decAt .borsh (some m.tag.order) (pre ++ fixed .le 4 n) tail)
      else core (decAt .borsh (some m.tag.order) (pre ++ fixed .le 4 n) tail) := by
  have hr := readUint32_reads .borsh .le n hlt (decAt .borsh (some m.tag.order) pre (fixed .le 4 n ++ tail)) tail rfl (decAt_ok _ _ _ _)
    (by rw [decAt_rest, fixed_eq])
  rw [← fixed_eq, decAt_adv] at hr
  unfold decField
  rw [M.bind_ok (show setCurD (fieldOpt m []).order (decAt .borsh cur pre (fixed .le 4 n ++ tail)) =
    (.ok (), decAt .borsh (some m.tag.order) pre (fixed .le 4 n ++ tail)) from rfl)]
  rw [if_neg (by rw [show (fieldOpt m []).optional = m.tag.option from rfl, hm.nooption]; simp),
    if_pos ⟨rfl, hm.coption⟩, if_neg (by simp [hl])]
  by_cases h1 : n > 1
  · have : readCOption (decAt .borsh (some m.tag.order) pre (fixed .le 4 n ++ tail)) =
        (.err .coption, decAt .borsh (some m.tag.order) (pre ++ fixed .le 4 n) tail) := by
      unfold readCOption; rw [M.bind_ok hr, if_pos h1]; rfl
    rw [M.bind_err this, if_pos h1]
  · have : readCOption (decAt .borsh (some m.tag.order) pre (fixed .le 4 n ++ tail)) =
        (.ok (n != 0), decAt .borsh (some m.tag.order) (pre ++ fixed .le 4 n) tail) := by
      unfold readCOption; rw [M.bind_ok hr, if_neg h1]; rfl
    rw [M.bind_ok this, if_neg h1]
    by_cases h0 : n = 0
    · rw [if_pos h0, if_neg (by simp [h0])]; rfl
    · rw [if_neg h0, if_pos (by simp [h0])]

/-- C39, decoding an absent field (flag word 0): the field becomes the zero value and the rest of the buffer is left. -/
theorem C39_absent (m : FieldMeta) (hm : IsCOptional m) (t : Ty) (old : Val)
    (hl : t.directLib = none) (hn : (Fields.cons m t .nil).isEnum = false) (ho : isPtrPtr t = false ∨ old = t.zero)
    (cur : Option Order) (pre tail : Bytes) :
    decode (.struct (.cons m t .nil)) (.struct [old]) (decAt .borsh cur pre ([0, 0, 0, 0] ++ tail)) =
      (.ok (.struct [t.zero]), decAt .borsh (some m.tag.order) (pre ++ [0, 0, 0, 0]) tail) := by
  have hav : absentVal t old = t.zero := by
    rcases ho with ho | ho
    · rw [absentVal_kept t old t.zero (by simp [ho]), absentVal_zero]
    · rw [ho, absentVal_zero]
  have hasl : t.asLib = none := by
    cases t <;> first | rfl | (simp [Ty.directLib] at hl)
  refine decode_single rfl m t old t.zero _ _ rfl (by simp [hn]) hm.noskip hm.exported hm.nosizeof hm.noext (by simp [hl]) ?_
  have := decField_coption m hm t old (decCore .borsh t (fieldOpt m []) old) hasl 0 (by omega) (some .le) pre tail
  rw [hav] at this
  exact this

/-- C39, decoding any other flag word than 0 and 1 is an error. -/
theorem C39_rejects (m : FieldMeta) (hm : IsCOptional m) (t : Ty) (old : Val)
    (hl : t.directLib = none) (hn : (Fields.cons m t .nil).isEnum = false) (n : Nat) (h2 : 2 ≤ n) (hlt : n < 2 ^ 32)
    (cur : Option Order) (pre tail : Bytes) :
    (decode (.struct (.cons m t .nil)) (.struct [old]) (decAt .borsh cur pre (fixed .le 4 n ++ tail))).1 = .err .coption := by
  have hasl : t.asLib = none := by
    cases t <;> first | rfl | (simp [Ty.directLib] at hl)
  have h := decField_coption m hm t old (decCore .borsh t (fieldOpt m []) old) hasl n hlt (some .le) pre tail
  rw [if_pos (show n > 1 by omega)] at h
  have hx2 : extensionEnds m = pure false := by unfold extensionEnds; rw [if_neg (by simp [hm.noext])]
  unfold decode
  rw [M.bind_apply, M.get_apply]
  simp only []
  rw [if_neg (by simp [decAt])]
  have henc : (decAt .borsh cur pre (fixed .le 4 n ++ tail)).enc = .borsh := rfl
  rw [henc, M.bind_ok (show setCurD .le (decAt .borsh cur pre (fixed .le 4 n ++ tail)) =
    (.ok (), decAt .borsh (some .le) pre (fixed .le 4 n ++ tail)) from rfl)]
  simp only [decCore, decStruct, hn, Val.fields, decFields, hm.noskip, hm.noext, hm.exported, hx2, hl, Bool.false_eq_true, if_false,
    Bool.and_false, Bool.not_false, Bool.and_true, Bool.not_true, Bool.or_false, and_false, if_true, M.bind_apply, M.pure_apply, h]

/-- C39, round trip of one field. -/
theorem C39_roundtrip (m : FieldMeta) (hm : IsCOptional m) (t : Ty) (v : Val) (hn : (Fields.cons m t .nil).isEnum = false)
    (h : Supported .borsh (.struct (.cons m t .nil)) (.struct [v])) :
    unmarshal .borsh (.struct (.cons m t .nil)) (Ty.struct (.cons m t .nil)).zero
        (marshal .borsh (.struct (.cons m t .nil)) (.struct [v])).2 =
      .ok (.struct [if t.isZero v then t.zero else copy .borsh t v]) := by
  rw [marshal_wire rfl _ _ h.1]
  have := unmarshal_wire rfl _ _ h []
  rw [List.append_nil] at this
  simp only []
  rw [this]
  simp only [copy, hn, copyFields, hm.noskip, hm.exported, absent, hm.coption, Bool.false_eq_true, false_or, true_or,
    and_true, and_false, if_false, true_and, reduceCtorEq, or_true]

/-- Meets the hypotheses: an optional pointer to a slice of strings, present. -/
example : IsCOptional { name := [65], tag := { coption := true } } ∧
    Supported .borsh (.struct (.cons { name := [65], tag := { coption := true } } (.ptr (.slice .str)) .nil))
      (.struct [.ptr (some (.seq (some [.str [104]])))]) := by
  refine ⟨⟨rfl, rfl, rfl, rfl, rfl, rfl⟩, ?_, ?_⟩
  · simp [Encodable, EncodableFields, announce, Fields.isEnum, absent, Ty.isZero, maxLen, maxStr, Ty.uintKind, Ty.kind, lookupSize]
  · simp [Returns, ReturnsFields, announced, Ty.asLib, Ty.directLib, absent, Ty.isZero, Fields.isEnum, readMax, Ty.uintKind, Ty.kind,
      wire, strPrefix, lenPrefix, fixed]
example : marshal .borsh (.struct (.cons { name := [65], tag := { coption := true } } (.ptr (.slice .str)) .nil))
    (.struct [.ptr (some (.seq (some [.str [104]])))]) = (.ok (), [1, 0, 0, 0, 1, 0, 0, 0, 1, 0, 0, 0, 104]) := by decide +kernel

/-! ### C40 -/

/-- An ordinary exported field, untagged but for `sizeof` and the byte order. -/
structure IsPlain (m : FieldMeta) : Prop where
  noskip : m.tag.skip = false
  exported : m.exported = true
  nooption : m.tag.option = false
  nocoption : m.tag.coption = false
  noext : m.tag.binExt = false

/-- C40, format: the count, then the elements with no prefix of their own. -/
theorem C40_format {e : Encoding} (he : e.valid = true) (ma mb : FieldMeta) (ha : IsPlain ma) (hb : IsPlain mb)
    (hs : ma.tag.sizeOf = mb.name) (hne : mb.name ≠ []) (hbs : mb.tag.sizeOf = []) (w : Width) (nm : Bool) (t : Ty) (n : Nat)
    (xs : List Val) (h : Encodable e (.struct (.cons ma (.uint w nm) (.cons mb (.slice t) .nil))) none
      (.struct [.uint n, .seq (some xs)])) :
    marshal e (.struct (.cons ma (.uint w nm) (.cons mb (.slice t) .nil))) (.struct [.uint n, .seq (some xs)]) =
      (.ok (), fixed (ord e ma.tag.order) w.bytes n ++ xs.flatMap fun x =>
        match t.uintKind with
        | some w => uintWire w x
        | none => wire e t .le false x) := by
  rw [marshal_wire he _ _ h, wire_struct _ _ _ (by simp [Fields.isEnum])]
  simp [wireFields, ha.noskip, ha.exported, hb.noskip, hb.exported, announced, hs, hne, hbs, fieldWire, ha.nooption, ha.nocoption,
    hb.nooption, hb.nocoption, wire]
  cases t.uintKind <;> rfl

theorem repeatM_count {σ α : Type} (f : M σ α) (n : Nat) : Post (repeatM f n) fun xs => xs.length = n := by
  induction n with
  | zero => exact Post.pure rfl
  | succ n ih => exact Post.after fun x => ih.map fun xs h => by simp [h]

theorem readUints_count (l : Int) (w : Width) : Post (readUints l w) fun xs => (xs.length : Int) = l := by
  have hn : Post (readNBytes l) fun b => (b.length : Int) = l := by
    unfold readNBytes
    refine Post.ite (fun h => Post.pure (by simp [h])) fun _ => Post.ite (fun _ => Post.err _) fun _ => ?_
    refine Post.after fun d => Post.ite (fun _ => Post.err _) fun _ => ?_
    refine Post.bind (P := fun b => (b.length : Int) = l) ?_ fun b hb => Post.after fun _ => Post.pure hb
    intro d b d' hr
    unfold sliceM at hr
    split at hr
    · simp only [Prod.mk.injEq, Res.ok.injEq] at hr
      rw [← hr.1]
      simp only [List.length_take, List.length_drop]
      omega
    · cases hr
  have hr : ∀ w : Width, Post (if l < 0 then M.panic else do
      let ns ← repeatM (readUintW w .le) l.toNat
      pure (ns.map Val.uint) : DM (List Val)) fun xs => (xs.length : Int) = l := fun w =>
    Post.ite (fun _ => Post.panic) fun _ => (repeatM_count _ _).map fun xs h => by simp [h]; omega
  unfold readUints
  refine Post.after fun d => Post.ite (fun _ => Post.err _) fun _ => ?_
  cases w
  · exact hn.map fun b hb => by simpa using hb
  · exact hr _
  · exact hr _
  · exact hr _

theorem slice_count {e : Encoding} (t : Ty) (o : Opt) (s : Int) (hs : o.sizeOf = some s) :
    Post (decCore e (.slice t) o (.seq none)) fun y => ∃ xs, y = .seq xs ∧ (xs.getD []).length = s.toNat := by
  simp only [decCore, hs]
  refine Post.bind (P := fun l => l = s) (Post.pure rfl) fun l hl => ?_
  subst hl
  refine Post.ite (fun h => Post.pure ⟨none, rfl, by simp [h.2]⟩) fun _ => Post.after fun d => Post.ite (fun _ => Post.err _) fun _ => ?_
  cases t.uintKind with
  | some w => exact (readUints_count l w).map fun xs h => ⟨some xs, rfl, by simp; omega⟩
  | none => exact (repeatM_count _ _).map fun xs h => ⟨some xs, rfl, by simp [h]⟩

/-- A counter field: `A` is of an unsigned or signed kind. -/
def isCounter : Ty → Bool
  | .uint _ _ | .int _ _ => true
  | _ => false

theorem decField_plain {e : Encoding} (m : FieldMeta) (hm : IsPlain m) (t : Ty) (sm : List (Bytes × Int)) (old : Val) (core : DM Val) :
    decField e t (fieldOpt m sm) old core = (do setCurD m.tag.order; core) := by
  unfold decField
  rw [if_neg (by rw [show (fieldOpt m sm).optional = m.tag.option from rfl, hm.nooption]; simp),
    if_neg (by rw [show (fieldOpt m sm).coptional = m.tag.coption from rfl, hm.nocoption]; simp)]
  rfl

theorem counter_post {e : Encoding} (t : Ty) (ht : isCounter t = true) (o : Opt) (old : Val) :
    Post (decCore e t o old) fun a => (∃ n, a = .uint n ∧ ∃ w, t.kind = .uint w) ∨ (∃ z, a = .int z ∧ ∃ w, t.kind = .int w) := by
  cases t <;> simp only [isCounter, Bool.false_eq_true] at ht
  · rename_i w nm
    simp only [decCore, decPlain]
    cases w <;> exact Post.after fun n => Post.pure (.inl ⟨_, rfl, _, rfl⟩)
  · rename_i w nm
    simp only [decCore, decPlain]
    cases w <;> exact Post.after fun n => Post.pure (.inr ⟨_, rfl, _, rfl⟩)

/-- C40, decoding into a fresh variable, whatever the bytes: if it succeeds, `B` has as many elements as `A` says, none if
`A` is negative or does not fit `int`. -/
theorem C40_count {e : Encoding} (ma mb : FieldMeta) (ha : IsPlain ma) (hb : IsPlain mb)
    (hs : ma.tag.sizeOf = mb.name) (hne : mb.name ≠ []) (hbs : mb.tag.sizeOf = []) (ta t : Ty) (hta : isCounter ta = true)
    (fs : Fields) (b : Bytes) (y : Val)
    (h : unmarshal e (.struct (.cons ma ta (.cons mb (.slice t) fs)))
      (Ty.zero (.struct (.cons ma ta (.cons mb (.slice t) fs)))) b = .ok y) :
    ∃ a xs rest, y = .struct (a :: .seq xs :: rest) ∧
      (∀ n, a = .uint n → n < 2 ^ 64 → (xs.getD []).length = if n < 2 ^ 63 then n else 0) ∧
      (∀ z, a = .int z → ((xs.getD []).length : Int) = max z 0) := by
  have hxa : extensionEnds ma = pure false := by unfold extensionEnds; rw [if_neg (by simp [ha.noext])]
  have hxb : extensionEnds mb = pure false := by unfold extensionEnds; rw [if_neg (by simp [hb.noext])]
  have hdl : (if e = .borsh then ta.directLib else none) = none := by
    cases ta <;> simp only [isCounter, Bool.false_eq_true] at hta <;> simp [Ty.directLib]
  have hdl' : (if e = .borsh then (Ty.slice t).directLib else none) = none := by simp [Ty.directLib]
  have hen : ¬ (e = .borsh ∧ (Fields.cons ma ta (.cons mb (.slice t) fs)).isEnum = true) := by
    cases ta <;> simp only [isCounter, Bool.false_eq_true] at hta <;> simp [Fields.isEnum]
  unfold unmarshal at h
  cases hr : decode (.struct (.cons ma ta (.cons mb (.slice t) fs))) (Ty.zero (.struct (.cons ma ta (.cons mb (.slice t) fs))))
    (Dec.new b e) with
  | mk res d' =>
  rw [hr] at h
  simp only at h
  subst h
  unfold decode at hr
  rw [M.bind_apply, M.get_apply] at hr
  simp only [] at hr
  by_cases ho : e = .other
  · rw [if_pos (by simpa [Dec.new] using ho)] at hr
    simp at hr
  rw [if_neg (by simpa [Dec.new] using ho), show (Dec.new b e).enc = e from rfl] at hr
  refine Post.after (Q := fun y => ∃ a xs rest, y = .struct (a :: .seq xs :: rest) ∧
      (∀ n, a = .uint n → n < 2 ^ 64 → (xs.getD []).length = if n < 2 ^ 63 then n else 0) ∧
      (∀ z, a = .int z → ((xs.getD []).length : Int) = max z 0)) (fun _ => ?_) _ _ _ hr
  simp only [decCore, decStruct, if_neg hen]
  refine Post.map (P := fun vs => ∃ a xs rest, vs = a :: .seq xs :: rest ∧
      (∀ n, a = .uint n → n < 2 ^ 64 → (xs.getD []).length = if n < 2 ^ 63 then n else 0) ∧
      (∀ z, a = .int z → ((xs.getD []).length : Int) = max z 0)) ?_
    fun vs ⟨a, xs, rest, h, h'⟩ => ⟨a, xs, rest, by rw [h], h'⟩
  simp only [Ty.zero, Fields.zeros, Val.fields, decFields, ha.noskip, ha.noext, ha.exported, hb.noskip, hb.noext, hb.exported, hxa, hxb,
    hdl, hdl', Bool.false_eq_true, if_false, Bool.and_false, Bool.not_false, Bool.and_true, Bool.not_true, Bool.or_false]
  refine Post.bind (P := fun q => q = false) (Post.pure rfl) fun q hq => ?_
  subst hq
  rw [if_neg (by simp), decField_plain ma ha]
  refine Post.bind (Post.after fun _ => counter_post ta hta _ _) fun a hA => ?_
  refine Post.bind (P := fun sm => ∃ s : Int, sm = [(mb.name, s)] ∧
      (∀ n, a = .uint n → n < 2 ^ 64 → s.toNat = if n < 2 ^ 63 then n else 0) ∧ (∀ z, a = .int z → s = z)) ?_ fun sm hsm => ?_
  · unfold recordSize
    rw [if_neg (by rw [hs]; exact hne), hs]
    rcases hA with ⟨n, rfl, w, hw⟩ | ⟨z, rfl, w, hw⟩
    · rw [hw]
      refine Post.map (P := fun s => s = if toSigned 64 n < 0 then 0 else toSigned 64 n) ?_ fun s hs => ⟨s, rfl, ?_, by simp⟩
      · intro s a s' hr
        simp only [sizeofVal, M.lift_apply, Prod.mk.injEq, Res.ok.injEq] at hr
        exact hr.1.symm
      · intro k hk hlt
        cases hk
        rw [hs]
        simp only [toSigned]
        split <;> omega
    · rw [hw]
      refine Post.map (P := fun s => s = z) ?_ fun s hs => ⟨s, rfl, by simp, by simp [hs]⟩
      intro s a s' hr
      simp only [sizeofVal, M.lift_apply, Prod.mk.injEq, Res.ok.injEq] at hr
      exact hr.1.symm
  · obtain ⟨s, rfl, h1, h2⟩ := hsm
    refine Post.map (P := fun vs => ∃ xs rest, vs = .seq xs :: rest ∧ (xs.getD []).length = s.toNat) ?_
      fun vs ⟨xs, rest, h, h'⟩ => ⟨a, xs, rest, by rw [h], fun n hn hlt => ?_, fun z hz => ?_⟩
    · refine Post.bind (P := fun q => q = false) (Post.pure rfl) fun q hq => ?_
      subst hq
      rw [if_neg (by simp), decField_plain mb hb]
      refine Post.bind (Post.after fun _ => slice_count t _ s (by simp [fieldOpt, lookupSize])) fun x ⟨xs, hx, hl⟩ => ?_
      exact Post.after fun sm => Post.after fun rest => Post.pure ⟨xs, rest, by rw [hx], hl⟩
    · have := h1 n hn hlt; omega
    · have := h2 z hz; omega

/-- C40, round trip: for every slice of supported elements, even one too long for a prefix, and every counter type wide
enough for its length. -/
theorem C40_roundtrip {e : Encoding} (he : e.valid = true) (ma mb : FieldMeta) (ha : IsPlain ma) (hb : IsPlain mb)
    (hs : ma.tag.sizeOf = mb.name) (hne : mb.name ≠ []) (hab : ma.name ≠ mb.name) (hbs : mb.tag.sizeOf = [])
    (hle : e = .borsh → ma.tag.order = .le ∧ mb.tag.order = .le) (w : Width) (nm : Bool) (t : Ty)
    (xs : List Val) (hw : xs.length < 2 ^ w.bits) (h1 : Encodable e (.slice t) (some xs.length) (.seq (some xs)))
    (h2 : Returns e (.slice t) true (.seq (some xs))) :
    unmarshal e (.struct (.cons ma (.uint w nm) (.cons mb (.slice t) .nil)))
        (Ty.zero (.struct (.cons ma (.uint w nm) (.cons mb (.slice t) .nil))))
        (marshal e (.struct (.cons ma (.uint w nm) (.cons mb (.slice t) .nil))) (.struct [.uint xs.length, .seq (some xs)])).2 =
      .ok (.struct [.uint xs.length, copy e (.slice t) (.seq (some xs))]) := by
  have hlen : xs.length < 2 ^ 63 := by
    have := h2
    simp only [Returns, Option.getD_some, if_true] at this
    have h3 := this.1
    omega
  have hsz : (if toSigned 64 xs.length < 0 then 0 else toSigned 64 xs.length) = (xs.length : Int) := by
    simp only [toSigned]; omega
  have hS : Supported e (.struct (.cons ma (.uint w nm) (.cons mb (.slice t) .nil))) (.struct [.uint xs.length, .seq (some xs)]) := by
    constructor
    · rw [Encodable, if_neg (by simp [Fields.isEnum])]
      simp only [EncodableFields, ha.noskip, hb.noskip, announce, hs, hne, hbs, Ty.kind, sizeofVal, hsz, Bool.false_eq_true, if_false,
        if_true, and_true, lookupSize]
      simp only [Encodable, Option.getD_some] at h1
      refine ⟨fun _ _ => by simpa [Encodable] using hw, fun _ _ => ?_⟩
      simp only [Encodable, Option.getD_some, List.find?, beq_self_eq_true, Option.map_some]
      exact ⟨trivial, h1.2⟩
    · rw [Returns, if_neg (by simp [Fields.isEnum])]
      simp only [ReturnsFields, ha.noskip, hb.noskip, ha.noext, hb.noext, ha.exported, hb.exported, ha.nooption, ha.nocoption,
        hb.nooption, hb.nocoption, hs, hbs, Bool.false_eq_true, if_false, if_true, false_imp_iff, true_and, and_true, Ty.directLib,
        Bool.or_self, implies_true, ne_eq, not_true_eq_false]
      refine ⟨⟨fun h => (hle h).1, fun _ h => hab h.symm, fun _ => by simp [Returns]⟩, fun h => (hle h).2, fun _ => ?_⟩
      have hc : (announced mb (announced ma [])).contains mb.name = true := by simp [announced, hbs, hs, hne]
      rw [hc]
      exact h2
  rw [marshal_wire he _ _ hS.1]
  have := unmarshal_wire he _ _ hS []
  rw [List.append_nil] at this
  simp only []
  rw [this]
  simp [copy, copyFields, Fields.isEnum, ha.noskip, hb.noskip, ha.exported, hb.exported, absent, ha.nooption, ha.nocoption,
    hb.nooption, hb.nocoption]

/-- C40 is false for counters that do not fit in an `int`, and for negative counters: they count as no elements. -/
theorem C40_violated :
    let t := Ty.struct (.cons { name := [65], tag := { sizeOf := [66] } } (.uint .w64 false)
      (.cons { name := [66] } (.slice (.uint .w8 false)) .nil))
    let t' := Ty.struct (.cons { name := [65], tag := { sizeOf := [66] } } (.int .w8 false)
      (.cons { name := [66] } (.slice .bool) .nil))
    (∀ e, e.valid = true → ∃ n ys, n = 2 ^ 63 ∧ (ys : Option (List Val)).getD [] = [] ∧
      unmarshal e t t.zero [0, 0, 0, 0, 0, 0, 0, 128] = .ok (.struct [.uint n, .seq ys])) ∧
    (∀ e, e.valid = true → ∃ ys, (ys : Option (List Val)).getD [] = [] ∧
      unmarshal e t' t'.zero [255] = .ok (.struct [.int (-1), .seq ys])) := by
  intro t t'
  constructor
  · intro e he
    cases e <;> cases he
    · exact ⟨_, some [], rfl, rfl, by decide +kernel⟩
    · exact ⟨_, some [], rfl, rfl, by decide +kernel⟩
    · exact ⟨_, none, rfl, rfl, by decide +kernel⟩
  · intro e he
    cases e <;> cases he
    · exact ⟨some [], rfl, by decide +kernel⟩
    · exact ⟨some [], rfl, by decide +kernel⟩
    · exact ⟨some [], rfl, by decide +kernel⟩

example : marshal .bin (.struct (.cons { name := [65], tag := { sizeOf := [66], order := .be } } (.uint .w16 false)
    (.cons { name := [66] } (.slice .str) .nil))) (.struct [.uint 2, .seq (some [.str [], .str []])]) =
    (.ok (), [0, 2, 0, 0, 0, 0, 0, 0, 0, 0, 0, 0, 0, 0, 0, 0, 0, 0]) := by decide +kernel
example : Encodable .bin (.slice .str) (some 2) (.seq (some [.str [], .str []])) ∧
    Returns .bin (.slice .str) true (.seq (some [.str [], .str []])) := by
  constructor
  · simp [Encodable, maxLen, maxStr, Ty.uintKind, Ty.kind]
  · simp [Returns, readMax, Ty.uintKind, Ty.kind, wire, strPrefix, fixed]

/-! ### C41 -/

/-- C41: whatever an older version of the struct (without the extension fields `gs`) decodes, to the end of the buffer, the
newer version decodes to the same fields, and the extension fields keep what they held. -/
theorem C41_older {e : Encoding} (hv : e.valid = true) (fs gs : Fields) (hg : gs.allExt = true)
    (hn : ¬ (e = .borsh ∧ (fs.append gs).isEnum = true)) (hn' : ¬ (e = .borsh ∧ fs.isEnum = true))
    (os extra : List Val) (ho : os.length = fs.length) (hl : extra.length = gs.length) (d d' : Dec) (v : Val) (he : d.enc = e)
    (h : decode (.struct fs) (.struct os) d = (.ok v, d')) (hend : d'.pos = d'.data.length) :
    ∃ xs, v = .struct xs ∧ decode (.struct (fs.append gs)) (.struct (os ++ extra)) d = (.ok (.struct (xs ++ extra)), d') :=
  decode_append hv fs gs hg hn hn' os extra ho hl d d' v he h (by constructor <;> omega)
    (by unfold Dec.rest; rw [hend]; simp)

/-- C41, in particular data written by the older version. -/
theorem C41_older_data {e : Encoding} (hv : e.valid = true) (fs gs : Fields) (hg : gs.allExt = true)
    (hn : ¬ (e = .borsh ∧ (fs.append gs).isEnum = true)) (hn' : ¬ (e = .borsh ∧ fs.isEnum = true)) (extra : List Val)
    (hl : extra.length = gs.length) (vs : List Val) (h : Supported e (.struct fs) (.struct vs)) :
    unmarshal e (.struct (fs.append gs)) (.struct (fs.zeros ++ extra)) (marshal e (.struct fs) (.struct vs)).2 =
      .ok (.struct (copyFields e fs vs ++ extra)) := by
  rw [marshal_wire hv _ _ h.1]
  have hrest : (Dec.new (wire e (.struct fs) .le false (.struct vs)) e).rest = wire e (.struct fs) .le false (.struct vs) ++ [] := by
    rw [Dec.new_rest]; simp
  obtain ⟨c, hc⟩ := decode_r hv _ _ h.1 h.2 (Dec.new _ e) [] rfl (Dec.new_ok _ e) hrest
  obtain ⟨xs, hx, hd⟩ := C41_older hv fs gs hg hn hn' fs.zeros extra (Fields.zeros_length fs) hl _ _ _ rfl hc
    (by simp [Dec.to, Dec.new])
  simp only [copy, if_neg hn', Val.struct.injEq] at hx
  unfold unmarshal
  simp only []
  rw [hd, hx]

/-- C41, when the bytes are there the extension fields are decoded. -/
theorem C41_newer {e : Encoding} (hv : e.valid = true) (fs gs : Fields) (vs ws : List Val) (hvs : vs.length = fs.length)
    (hn : ¬ (e = .borsh ∧ (fs.append gs).isEnum = true)) (h : Supported e (.struct (fs.append gs)) (.struct (vs ++ ws)))
    (tail : Bytes) :
    unmarshal e (.struct (fs.append gs)) (Ty.zero (.struct (fs.append gs))) ((marshal e (.struct (fs.append gs)) (.struct (vs ++ ws))).2 ++ tail) =
      .ok (.struct (copyFields e fs vs ++ copyFields e gs ws)) := by
  have happ : ∀ (fs gs : Fields) (vs ws : List Val), vs.length = fs.length →
      copyFields e (fs.append gs) (vs ++ ws) = copyFields e fs vs ++ copyFields e gs ws := by
    intro fs gs vs
    induction vs generalizing fs with
    | nil => intro ws hl; cases fs <;> simp [Fields.append, copyFields, Fields.length] at hl ⊢
    | cons v vs ih =>
      intro ws hl
      cases fs with
      | nil => simp [Fields.length] at hl
      | cons m t fs =>
        simp only [Fields.append, List.cons_append, copyFields]
        rw [ih fs ws (by simpa [Fields.length] using hl)]
  rw [marshal_wire hv _ _ h.1]
  simp only []
  rw [unmarshal_wire hv _ _ h tail]
  simp only [copy, if_neg hn]
  rw [happ fs gs vs ws hvs]

/-- Meets the hypotheses: one plain field, two extensions, holding 5 and 6 before. -/
example : Fields.allExt (.cons { name := [66], tag := { binExt := true } } (.uint .w8 false)
      (.cons { name := [67], tag := { binExt := true } } .bool .nil)) = true ∧
    Supported .bin (.struct (.cons { name := [65] } (.uint .w16 false) .nil)) (.struct [.uint 300]) := by
  refine ⟨rfl, ?_, ?_⟩
  · simp [Encodable, EncodableFields, announce, Fields.isEnum, Width.bits, Width.bytes]
  · simp [Returns, ReturnsFields, Fields.isEnum]
example : unmarshal .bin (.struct (.cons { name := [65] } (.uint .w16 false) (.cons { name := [66], tag := { binExt := true } }
    (.uint .w8 false) .nil))) (.struct [.uint 1, .uint 5]) [44, 1] = .ok (.struct [.uint 300, .uint 5]) := by decide +kernel
example : unmarshal .bin (.struct (.cons { name := [65] } (.uint .w16 false) (.cons { name := [66], tag := { binExt := true } }
    (.uint .w8 false) .nil))) (.struct [.uint 1, .uint 5]) [44, 1, 9] = .ok (.struct [.uint 300, .uint 9]) := by decide +kernel

end Verif.Props
