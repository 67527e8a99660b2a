import Verif.Proofs.Utf8
import Verif.Spec.Copy
import Verif.Proofs.EncodeWire
/-!
The reflection decoder reads `Spec.wire` back as `Spec.copy`, for every type and every value that `Returns`.
-/
set_option linter.unusedSimpArgs false
namespace Verif
open Spec

/-- The decoder after `k` bytes, with current field option `c`. -/
def Dec.to (d : Dec) (k : Nat) (c : Option Order) : Dec := { d.adv k with cur := c }

@[simp] theorem Dec.to_enc (d : Dec) (k c) : (d.to k c).enc = d.enc := rfl
@[simp] theorem Dec.to_cur (d : Dec) (k c) : (d.to k c).cur = c := rfl
@[simp] theorem Dec.to_data (d : Dec) (k c) : (d.to k c).data = d.data := rfl
@[simp] theorem Dec.to_rest (d : Dec) (k c) : (d.to k c).rest = (d.adv k).rest := rfl
theorem Dec.to_ok {d : Dec} {k c} (h : (d.adv k).Ok) : (d.to k c).Ok := h
@[simp] theorem Dec.to_to (d : Dec) (a b c c') : (d.to a c).to b c' = d.to (a + b) c' := by
  simp [Dec.to, Dec.adv, Int.add_assoc]
theorem Dec.adv_eq_to (d : Dec) (k) : d.adv k = d.to k d.cur := rfl
@[simp] theorem Dec.to_adv (d : Dec) (a b c) : (d.to a c).adv b = d.to (a + b) c := by
  simp [Dec.to, Dec.adv, Int.add_assoc]
@[simp] theorem Dec.adv_to (d : Dec) (a b c) : (d.adv a).to b c = d.to (a + b) c := by
  simp [Dec.to, Dec.adv, Int.add_assoc]

/-- Whatever follows, `r` turns the bytes `bs` into `a` and moves exactly past them, possibly changing the current field
option, which stays little endian in Borsh. -/
def RD {α : Type} (e : Encoding) (r : DM α) (bs : Bytes) (a : α) : Prop :=
  ∀ (d : Dec) (tail : Bytes), d.enc = e → d.Ok → d.rest = bs ++ tail → (e = .borsh → d.cur = some .le) →
    ∃ c, (e = .borsh → c = some .le) ∧ r d = (.ok a, d.to bs.length c)

/-- The same when the current field option says `o`. -/
def RDat {α : Type} (e : Encoding) (o : Order) (r : DM α) (bs : Bytes) (a : α) : Prop :=
  ∀ (d : Dec) (tail : Bytes), d.enc = e → d.Ok → d.rest = bs ++ tail → (e = .borsh → d.cur = some .le) →
    d.cur = some o → ∃ c, (e = .borsh → c = some .le) ∧ r d = (.ok a, d.to bs.length c)

section
variable {α β : Type} {e : Encoding}

theorem RD.at {r : DM α} {bs a} (h : RD e r bs a) (o : Order) : RDat e o r bs a :=
  fun d t h1 h2 h3 h4 _ => h d t h1 h2 h3 h4

theorem Reads.rd {r : DM α} {bs a} (h : Reads e r bs a) : RD e r bs a :=
  fun d t h1 h2 h3 h4 => ⟨d.cur, h4, h d t h1 h2 h3⟩

theorem RD.pure (a : α) : RD e (pure a) [] a := (Reads.pure a).rd

theorem RDat.set {o : Order} (ho : e = .borsh → o = .le) {r : DM α} {bs a} (h : RDat e o r bs a) :
    RD e (setCurD o >>= fun _ => r) bs a := by
  intro d tail h1 h2 h3 h4
  obtain ⟨c, hc, hr⟩ := h { d with cur := some o } tail h1 h2 h3 (fun hb => by rw [ho hb]) rfl
  refine ⟨c, hc, ?_⟩
  simp only [setCurD, M.bind_apply, M.modify_apply]
  rw [hr]; rfl

theorem RDat.bind {o : Order} {r : DM α} {f : α → DM β} {b1 b2 a b} (h1 : RDat e o r b1 a) (h2 : RD e (f a) b2 b) :
    RDat e o (r >>= f) (b1 ++ b2) b := by
  intro d tail he ho hr hb hc
  have hr1 : d.rest = b1 ++ (b2 ++ tail) := by simpa using hr
  obtain ⟨c1, hc1, e1⟩ := h1 d _ he ho hr1 hb hc
  rw [M.bind_ok e1]
  obtain ⟨c2, hc2, e2⟩ := h2 (d.to b1.length c1) tail he (Dec.to_ok (Dec.adv_ok_append ho hr1))
    (by rw [Dec.to_rest]; exact Dec.adv_rest_append ho hr1) hc1
  exact ⟨c2, hc2, by rw [e2]; simp⟩

theorem RD.bind {r : DM α} {f : α → DM β} {b1 b2 a b} (h1 : RD e r b1 a) (h2 : RD e (f a) b2 b) :
    RD e (r >>= f) (b1 ++ b2) b := by
  intro d tail he ho hr hb
  have hr1 : d.rest = b1 ++ (b2 ++ tail) := by simpa using hr
  obtain ⟨c1, hc1, e1⟩ := h1 d _ he ho hr1 hb
  rw [M.bind_ok e1]
  obtain ⟨c2, hc2, e2⟩ := h2 (d.to b1.length c1) tail he (Dec.to_ok (Dec.adv_ok_append ho hr1))
    (by rw [Dec.to_rest]; exact Dec.adv_rest_append ho hr1) hc1
  exact ⟨c2, hc2, by rw [e2]; simp⟩

theorem RDat.bind_pure {o : Order} {r : DM α} {f : α → β} {bs a} (h : RDat e o r bs a) :
    RDat e o (r >>= fun x => Pure.pure (f x)) bs (f a) := by
  have := h.bind (f := fun x => Pure.pure (f x)) (RD.pure (f a))
  rwa [List.append_nil] at this

theorem RD.bind_pure {r : DM α} {f : α → β} {bs a} (h : RD e r bs a) :
    RD e (r >>= fun x => Pure.pure (f x)) bs (f a) := by
  have := h.bind (f := fun x => Pure.pure (f x)) (RD.pure (f a))
  rwa [List.append_nil] at this

/-- Looking at the decoder changes nothing. -/
theorem RD.get {f : Dec → DM α} {bs a}
    (h : ∀ d0 : Dec, d0.Ok → (∃ tail, d0.rest = bs ++ tail) → RD e (f d0) bs a) : RD e (M.get >>= f) bs a := by
  intro d tail he ho hr hb
  rw [M.bind_apply, M.get_apply]
  exact h d ho ⟨tail, hr⟩ d tail he ho hr hb

theorem RD.enough {l : Int} {err : Err} {r : DM α} {bs a} (hl : l ≤ bs.length) (h : RD e r bs a) :
    RD e (M.get >>= fun d => if l > d.remaining then M.err err else r) bs a := by
  refine RD.get fun d ho ⟨tail, hr⟩ => ?_
  have h1 := d.rest_length ho
  rw [hr, List.length_append] at h1
  rw [if_neg (by omega)]
  exact h

theorem RD.repeat {γ : Type} {f : DM α} {g : γ → Bytes} {h : γ → α} (xs : List γ) (hx : ∀ x ∈ xs, RD e f (g x) (h x)) :
    RD e (repeatM f xs.length) (xs.flatMap g) (xs.map h) := by
  induction xs with
  | nil => exact RD.pure []
  | cons x xs ih =>
    rw [List.flatMap_cons, List.map_cons, List.length_cons]
    unfold repeatM
    exact (hx x (by simp)).bind ((ih fun y hy => hx y (by simp [hy])).bind_pure)

theorem RD.traverse {γ δ : Type} {f : δ → DM α} {g : γ → Bytes} {h : γ → α} (z : δ) (xs : List γ)
    (hx : ∀ x ∈ xs, RD e (f z) (g x) (h x)) :
    RD e (traverseM f (List.replicate xs.length z)) (xs.flatMap g) (xs.map h) := by
  induction xs with
  | nil => exact RD.pure []
  | cons x xs ih =>
    rw [List.flatMap_cons, List.map_cons, List.length_cons, List.replicate_succ]
    unfold traverseM
    exact (hx x (by simp)).bind ((ih fun y hy => hx y (by simp [hy])).bind_pure)
end

/-! ### scalars and library types -/

theorem readMax_eq (e : Encoding) : readMax e ≤ lenMax e := by cases e <;> decide

theorem readMax_lt (e : Encoding) : readMax e ≤ 2 ^ 31 - 1 := by cases e <;> decide

theorem lenPrefix_eq' (e : Encoding) (n : Nat) (h : n ≤ readMax e) : lenPrefix e n = lenBytes e n :=
  lenPrefix_eq e n fun _ => by have := readMax_lt e; omega

theorem varint_leb (n : Nat) (h : n < 2 ^ 64) :
    Spec.Groups (varint n) ∧ (varint n).length ≤ 10 ∧ Spec.leb (varint n) = n := by
  rw [varint_eq n h]; obtain ⟨h1, h2, h3⟩ := uvarintBytes_groups n h; exact ⟨h1, h3, h2⟩

theorem order128_some (o : Order) (x : Option Order) : order128 (some o) x = o := by
  cases x <;> rfl

theorem unmarshalLib_r {e : Encoding} (hv : e.valid = true) (l : Lib) (o : Order) (v : Val) (h : LibEnc e l v)
    (hr : LibRet e l v) : RDat e o (unmarshalLib l l.zero) (libWire e l o v) (copyLib v) := by
  have hu : ∀ n, n < 2 ^ 64 → Reads e readUvarint64 (varint n) n := by
    intro n hn
    obtain ⟨h1, h2, h3⟩ := varint_leb n hn
    have := readUvarint64_reads e _ h1 h2 (by omega)
    rwa [h3] at this
  have hz : ∀ z : Int, -2 ^ 31 ≤ z → z < 2 ^ 31 → Reads e readVarint64 (varint (zig z)) z := by
    intro z hz0 hz1
    have hlt : zig z < 2 ^ 64 := by unfold zig; split <;> omega
    obtain ⟨h1, h2, h3⟩ := varint_leb (zig z) hlt
    have := readVarint64_reads e _ h1 h2 (by omega)
    rw [h3, zig_eq z (by omega) (by omega), unzigzag_zigzag (by omega) (by omega)] at this
    rwa [zig_eq z (by omega) (by omega)]
  have get : ∀ {f : Dec → DM Val} {bs a}, (∀ d0 : Dec, d0.cur = some o → RD e (f d0) bs a) →
      RDat e o (M.get >>= f) bs a := by
    intro f bs a hf d tail he ho hr hb hc
    rw [M.bind_apply, M.get_apply]
    exact hf d hc d tail he ho hr hb
  cases l <;> cases v <;> simp only [LibEnc] at h <;> simp only [LibRet] at hr <;>
    simp only [unmarshalLib, libWire, copyLib, Lib.zero]
  case safeString.str s =>
    rw [lenPrefix_eq' e _ hr.1]
    have := ((readByteSlice_reads e hv s (Nat.le_trans hr.1 (readMax_eq e))).bind_pure (f := fixUtf8)).bind_pure
      (f := Val.str)
    rw [(fixUtf8_eq_self s).mpr hr.2] at this
    exact this.rd.at o
  case bool.bool b =>
    have := (readBool_reads e (if b = true then 1 else 0)).bind_pure (f := Val.bool)
    cases b <;> exact this.rd.at o
  case hexBytes.bytes b =>
    rw [lenPrefix_eq' e _ hr]
    exact ((readByteSlice_reads e hv _ (Nat.le_trans hr (readMax_eq e))).bind_pure
      (f := fun b => Val.bytes (some b))).rd.at o
  case varint16.int z =>
    have := ((hz z (by omega) (by omega)).bind_pure (f := toSigned 16 ∘ toUnsigned 16)).bind_pure (f := Val.int)
    simp only [Function.comp] at this
    rw [toSigned_toUnsigned (by decide) (by omega) (by omega)] at this
    exact this.rd.at o
  case varint32.int z =>
    have := ((hz z (by omega) (by omega)).bind_pure (f := toSigned 32 ∘ toUnsigned 32)).bind_pure (f := Val.int)
    simp only [Function.comp] at this
    rw [toSigned_toUnsigned (by decide) (by omega) (by omega)] at this
    exact this.rd.at o
  case varuint16.uint n =>
    have := ((hu n (by omega)).bind_pure (f := fun n => n % 2 ^ 16)).bind_pure (f := Val.uint)
    rw [Nat.mod_eq_of_lt h] at this
    exact this.rd.at o
  case varuint32.uint n =>
    have := (hu n (by omega)).bind_pure (f := fun n => Val.uint (n % 2 ^ 32))
    rw [Nat.mod_eq_of_lt h] at this
    exact this.rd.at o
  case jsonFloat64.float n =>
    refine get fun d0 hc => ?_
    rw [hc, fixed_eq]
    refine ((readFloat64_reads e o n h.1 ?_).bind_pure (f := Val.float)).rd
    rintro ⟨he, hn⟩
    rw [h.2 he] at hn; cases hn
  case int64.int z =>
    refine get fun d0 hc => ?_
    rw [hc, fixed_eq, twos_eq]
    exact ((readInt64_reads e o z h.1 h.2).bind_pure (f := Val.int)).rd
  case uint64.uint n =>
    refine get fun d0 hc => ?_
    rw [hc, fixed_eq]
    exact ((readUint64_reads e o n h).bind_pure (f := Val.uint)).rd
  case uint128.u128 lo hi x =>
    refine get fun d0 hc => ?_
    rw [hc, order128_some, fixed128_eq o lo hi h.1]
    exact ((readUint128_reads e o lo hi h.1 h.2).bind_pure (f := fun r : Nat × Nat => Val.u128 r.1 r.2 none)).rd
  case int128.u128 lo hi x =>
    refine get fun d0 hc => ?_
    rw [hc, order128_some, fixed128_eq o lo hi h.1]
    exact ((readUint128_reads e o lo hi h.1 h.2).bind_pure (f := fun r : Nat × Nat => Val.u128 r.1 r.2 none)).rd
  case float128.u128 lo hi x =>
    refine get fun d0 hc => ?_
    rw [hc, order128_some, fixed128_eq o lo hi h.1]
    exact ((readUint128_reads e o lo hi h.1 h.2).bind_pure (f := fun r : Nat × Nat => Val.u128 r.1 r.2 none)).rd
  case emptyVariant.struct vs =>
    subst h
    exact (RD.pure _).at o

theorem decUint_r {e : Encoding} (w : Width) (o : Order) (n : Nat) (h : n < 2 ^ w.bits) :
    RD e (decScalar e (.uint w) o) (fixed o w.bytes n) (.uint n) := by
  cases w <;> simp only [decScalar, Width.bytes, Width.bits] at h ⊢
  · rw [fixed_one']
    have := (readByte_reads e (UInt8.ofNat n)).bind_pure (f := fun b => Val.uint b.toNat)
    rw [UInt8.toNat_ofNat', Nat.mod_eq_of_lt (by omega)] at this
    exact this.rd
  · rw [fixed_eq]; exact ((readUint16_reads e o n h).bind_pure (f := Val.uint)).rd
  · rw [fixed_eq]; exact ((readUint32_reads e o n h).bind_pure (f := Val.uint)).rd
  · rw [fixed_eq]; exact ((readUint64_reads e o n h).bind_pure (f := Val.uint)).rd

theorem decInt_r {e : Encoding} (w : Width) (o : Order) (z : Int) (h0 : -2 ^ (w.bits - 1) ≤ z) (h1 : z < 2 ^ (w.bits - 1)) :
    RD e (decScalar e (.int w) o) (fixed o w.bytes (twos w.bits z)) (.int z) := by
  rw [twos_eq]
  cases w <;> simp only [decScalar, Width.bytes, Width.bits] at h0 h1 ⊢
  · rw [fixed_one']; exact ((readInt8_reads e z (by simpa using h0) (by simpa using h1)).bind_pure (f := Val.int)).rd
  · rw [fixed_eq]; exact ((readInt16_reads e o z h0 h1).bind_pure (f := Val.int)).rd
  · rw [fixed_eq]; exact ((readInt32_reads e o z h0 h1).bind_pure (f := Val.int)).rd
  · rw [fixed_eq]; exact ((readInt64_reads e o z h0 h1).bind_pure (f := Val.int)).rd

theorem decStr_r {e : Encoding} (hv : e.valid = true) (o : Order) (s : Bytes) (h : s.length ≤ readMax e) :
    RD e (decScalar e .string o) (strPrefix e s.length ++ s) (.str s) := by
  simp only [decScalar, strPrefix]
  by_cases he : e = .bin
  · rw [if_pos he, if_pos he, fixed_eq]
    exact ((readRustString_reads e s (by have := readMax_lt e; omega)).bind_pure (f := Val.str)).rd
  · rw [if_neg he, if_neg he, lenPrefix_eq' e _ h]
    exact ((readByteSlice_reads e hv s (Nat.le_trans h (readMax_eq e))).bind_pure (f := Val.str)).rd

theorem readSeqLen_r {e : Encoding} (hv : e.valid = true) (n : Nat) (h : n ≤ readMax e) :
    Reads e (readSeqLen e) (lenPrefix e n) n := by
  rw [lenPrefix_eq' e n h]
  cases e
  · exact readLength_reads .bin rfl n (Nat.le_trans h (readMax_eq _))
  · exact readCompactU16_reads _ n h
  · exact readUint32_reads _ .le n (by have := readMax_lt .borsh; omega)
  · cases hv

theorem uintElem_map {w : Width} : (xs : List Val) → (∀ x ∈ xs, UintElem w x) →
    ∃ ns : List Nat, (∀ n ∈ ns, n < 2 ^ w.bits) ∧ xs = ns.map Val.uint
  | [], _ => ⟨[], by simp, rfl⟩
  | x :: xs, h => by
    obtain ⟨ns, h1, h2⟩ := uintElem_map xs fun y hy => h y (by simp [hy])
    have hx := h x (by simp)
    cases x <;> simp only [UintElem] at hx
    rename_i n
    refine ⟨n :: ns, ?_, by rw [h2]; rfl⟩
    simpa using ⟨hx, h1⟩

theorem readUints_r {e : Encoding} (w : Width) (xs : List Val) (hx : ∀ x ∈ xs, UintElem w x)
    (hl : xs.length < 2 ^ 31) : RD e (readUints xs.length w) (xs.flatMap (uintWire w)) xs := by
  obtain ⟨ns, hn, rfl⟩ := uintElem_map xs hx
  have hlen : ((ns.map Val.uint).flatMap (uintWire w)).length = (ns.map Val.uint).length * w.bytes := by
    rw [List.length_flatMap, List.map_map]
    have : ((fun a => (uintWire w a).length) ∘ Val.uint) = fun _ => w.bytes := by
      funext n; simp [uintWire]
    rw [this, List.length_map]
    clear hn hx hl
    induction ns with
    | nil => simp
    | cons n ns ih => simp only [List.map_cons, List.sum_cons, ih, List.length_cons, Nat.add_mul]; omega
  unfold readUints
  refine RD.enough (by rw [hlen]; omega) ?_
  have hgen : RD e (repeatM (readUintW w .le) ns.length) (ns.flatMap fun n => fixed .le w.bytes n) ns := by
    have := RD.repeat (e := e) (f := readUintW w .le) (g := fun n => fixed .le w.bytes n) (h := fun n : Nat => n) ns
      (by
        intro n hm
        have hlt := hn n hm
        rw [fixed_eq]
        cases w <;> simp only [readUintW, Width.bytes, Width.bits] at hlt ⊢
        · have := readUint8_reads e n (by omega)
          rw [← fixed_one, fixed_eq] at this
          exact this.rd
        · exact (readUint16_reads e .le n hlt).rd
        · exact (readUint32_reads e .le n hlt).rd
        · exact (readUint64_reads e .le n hlt).rd)
    simpa using this
  have hflat : (ns.map Val.uint).flatMap (uintWire w) = ns.flatMap fun n => fixed .le w.bytes n := by
    rw [List.flatMap_map]; rfl
  rw [hflat]
  have hword : w ≠ .w8 → RD e (if ((ns.map Val.uint).length : Int) < 0 then M.panic else do
        let ns ← repeatM (readUintW w .le) ((ns.map Val.uint).length : Int).toNat
        pure (ns.map Val.uint)) (ns.flatMap fun n => fixed .le w.bytes n) (ns.map Val.uint) := by
    intro _
    rw [if_neg (by omega)]
    rw [Int.toNat_natCast, List.length_map]
    exact hgen.bind_pure (f := fun ns => ns.map Val.uint)
  cases w
  · simp only [Width.bytes, fixed_one, List.length_map] at *
    have h1 : (ns.flatMap fun n => [UInt8.ofNat n]) = ns.map UInt8.ofNat := by
      clear hn hx hl hlen hgen hflat hword
      induction ns with
      | nil => rfl
      | cons n ns ih => simp [ih]
    rw [h1]
    have h2 := (readNBytes_reads e (ns.map UInt8.ofNat) (by simp; omega)).bind_pure
      (f := fun b => b.map fun b => Val.uint b.toNat)
    rw [List.length_map, List.map_map] at h2
    have h3 : ns.map ((fun b : UInt8 => Val.uint b.toNat) ∘ UInt8.ofNat) = ns.map Val.uint := by
      refine List.map_congr_left fun n hm => ?_
      have : n < 2 ^ 8 := hn n hm
      simp only [Function.comp, UInt8.toNat_ofNat']
      rw [Nat.mod_eq_of_lt this]
    rw [h3] at h2
    exact h2.rd
  · exact hword (by decide)
  · exact hword (by decide)
  · exact hword (by decide)

theorem readFlag_r {e : Encoding} (hv : e.valid = true) (b : Bool) : Reads e (readFlag e) (flag e b) b := by
  unfold readFlag flag
  cases e
  · rw [if_pos rfl, fixed_eq]
    have := (readUint32_reads .bin .le (if b = true then 1 else 0) (by split <;> decide)).bind_pure
      (f := fun n => n != 0)
    cases b <;> exact this
  · rw [if_neg (by decide), fixed_one]
    have := (readByte_reads .compactU16 (UInt8.ofNat (if b = true then 1 else 0))).bind_pure
      (f := fun n => n != 0)
    cases b <;> exact this
  · rw [if_neg (by decide), fixed_one]
    have := readOption_reads .borsh (UInt8.ofNat (if b = true then 1 else 0))
    cases b <;> exact this
  · cases hv

theorem readCOption_r {e : Encoding} (b : Bool) : Reads e readCOption (cflag b) b := by
  unfold cflag; rw [fixed_eq]; exact readCOption_reads e b

theorem absentVal_zero (t : Ty) : absentVal t t.zero = t.zero := by
  cases t <;> simp [absentVal, Ty.zero]

/-- Reading a struct field. -/
theorem field_r {e : Encoding} (hv : e.valid = true) (m : FieldMeta) (t : Ty) (v : Val) (sm : List (Bytes × Int))
    {core : DM Val} {body : Bytes} {a : Val} (ho : e = .borsh → m.tag.order = .le)
    (h1 : m.tag.option = true → t.asLib = none)
    (h2 : e = .borsh → m.tag.coption = true → t.asLib = none ∧ (m.tag.option = true → t.baseLib = false))
    (hc : ¬ absent e m t v → RDat e m.tag.order core body a) :
    RD e (decField e t (fieldOpt m sm) t.zero core) (fieldWire e m t v body)
      (if absent e m t v then t.zero else a) := by
  unfold decField
  rw [show (fieldOpt m sm).optional = m.tag.option from rfl, show (fieldOpt m sm).coptional = m.tag.coption from rfl]
  refine RDat.set ho ?_
  by_cases hopt : m.tag.option = true
  · simp only [hopt, if_true, h1 hopt, Option.isSome_none, Bool.false_eq_true, if_false]
    by_cases hz : t.isZero v = true
    · have ha : absent e m t v := ⟨hz, Or.inl hopt⟩
      have hfw : fieldWire e m t v body = flag e false := by unfold fieldWire; rw [if_pos ⟨hopt, hz⟩]
      rw [if_pos ha, hfw]
      have := ((readFlag_r hv false).rd.at m.tag.order).bind (f := fun present => if present = true then
          if e = .borsh ∧ m.tag.coption = true then
            if t.baseLib = true then M.panic
            else do
              let present ← readCOption
              if present = true then core else pure (absentBase t)
          else core
        else pure (absentVal t t.zero)) (b2 := []) (b := t.zero)
        (by rw [absentVal_zero]; exact RD.pure _)
      rw [List.append_nil] at this
      exact this
    · have ha : ¬ absent e m t v := fun h => hz h.1
      have hfw : fieldWire e m t v body = flag e true ++ (if e = .borsh ∧ m.tag.coption = true then
          (if t.isZero v = true then cflag false else cflag true ++ body) else body) := by
        unfold fieldWire; rw [if_neg (fun h => hz h.2), if_pos hopt]
      rw [if_neg ha, hfw]
      intro d tail hd hok hr hb hcur
      have hr' : d.rest = flag e true ++ ((if e = .borsh ∧ m.tag.coption = true then
          (if t.isZero v = true then cflag false else cflag true ++ body) else body) ++ tail) := by simpa using hr
      rw [M.bind_ok (readFlag_r hv true d _ hd hok hr')]
      simp only [if_true]
      have hok' := Dec.adv_ok_append hok hr'
      have hrest' := Dec.adv_rest_append hok hr'
      by_cases hco : e = .borsh ∧ m.tag.coption = true
      · simp only [if_pos hco, if_neg hz] at hrest' ⊢
        rw [if_neg (by rw [(h2 hco.1 hco.2).2 hopt]; simp)]
        rw [List.append_assoc] at hrest'
        rw [M.bind_ok (readCOption_r (e := e) true (d.adv (flag e true).length) _ hd hok' hrest')]
        obtain ⟨c, hc', hx⟩ := hc ha ((d.adv (flag e true).length).adv (cflag true).length) tail hd (Dec.adv_ok_append hok' hrest') (Dec.adv_rest_append hok' hrest') hb hcur
        refine ⟨c, hc', ?_⟩
        simp only [if_true]
        rw [hx]; simp [Nat.add_assoc]
      · simp only [if_neg hco] at hrest' ⊢
        obtain ⟨c, hc', hx⟩ := hc ha (d.adv (flag e true).length) tail hd hok' hrest' hb hcur
        refine ⟨c, hc', ?_⟩
        rw [hx]; simp
  · simp only [hopt, if_false, Bool.false_eq_true]
    have hfw : fieldWire e m t v body = if e = .borsh ∧ m.tag.coption = true then
        (if t.isZero v = true then cflag false else cflag true ++ body) else body := by
      unfold fieldWire
      rw [if_neg (fun h => hopt h.1), if_neg hopt, List.nil_append]
    rw [hfw]
    by_cases hco : e = .borsh ∧ m.tag.coption = true
    · simp only [if_pos hco]
      rw [if_neg (by rw [(h2 hco.1 hco.2).1]; simp)]
      by_cases hz : t.isZero v = true
      · rw [if_pos hz, if_pos ⟨hz, Or.inr hco⟩]
        have := ((readCOption_r (e := e) false).rd.at m.tag.order).bind
          (f := fun present => if present = true then core else pure (absentVal t t.zero)) (b2 := []) (b := t.zero)
          (by rw [absentVal_zero]; exact RD.pure _)
        rw [List.append_nil] at this
        exact this
      · have ha : ¬ absent e m t v := fun h => hz h.1
        rw [if_neg hz, if_neg ha]
        intro d tail hd hok hr hb hcur
        have hr' : d.rest = cflag true ++ (body ++ tail) := by simpa using hr
        rw [M.bind_ok (readCOption_r (e := e) true d _ hd hok hr')]
        obtain ⟨c, hc', hx⟩ := hc ha (d.adv (cflag true).length) tail hd (Dec.adv_ok_append hok hr') (Dec.adv_rest_append hok hr') hb hcur
        refine ⟨c, hc', ?_⟩
        simp only [if_true]
        rw [hx]; simp
    · simp only [if_neg hco]
      have ha : ¬ absent e m t v := fun h => h.2.elim hopt hco
      rw [if_neg ha]
      exact hc ha

theorem noBytesLeft_r {d : Dec} (ho : d.Ok) (h : d.rest ≠ []) : noBytesLeft d = (.ok false, d) := by
  unfold noBytesLeft
  rw [M.bind_ok (restM_ok ho)]
  have : (d.rest.length == 0) = false := by
    cases hr : d.rest with
    | nil => exact absurd hr h
    | cons x xs => rfl
  rw [this]; rfl

theorem sizeof_copy {e : Encoding} (t : Ty) (v : Val) {n : Int} (h : sizeofVal t.kind v = .ok n) :
    sizeofVal t.kind (copy e t v) = .ok n := by
  cases t <;> simp only [Ty.kind, sizeofVal] at h
  case lib l => cases l <;> cases v <;> simp only [Lib.kind, sizeofVal] at h <;> first | contradiction | exact h
  all_goals first | contradiction | (cases v <;> simp only [sizeofVal] at h <;> first | contradiction | exact h)

theorem sizeof_zero (t : Ty) (v : Val) {n : Int} (hz : t.isZero v = true) (h : sizeofVal t.kind v = .ok n) :
    sizeofVal t.kind t.zero = .ok n := by
  cases t <;> simp only [Ty.kind, sizeofVal] at h
  case lib l =>
    cases l <;> cases v <;> simp only [Lib.kind, sizeofVal] at h <;>
      first | contradiction | (simp [Ty.isZero, Lib.isZero] at hz; subst hz; exact h)
  all_goals first | contradiction |
    (cases v <;> simp only [sizeofVal] at h <;>
      first | contradiction | (simp [Ty.isZero] at hz; subst hz; exact h))

theorem setEntry_fresh {k : Ty} {x : Val × Val} : (m : List (Val × Val)) → (∀ y ∈ m, k.keyEq y.1 x.1 = false) →
    setEntry k x m = m ++ [x]
  | [], _ => rfl
  | y :: ys, h => by
    unfold setEntry
    rw [if_neg (by rw [h y (by simp)]; simp), setEntry_fresh ys fun z hz => h z (by simp [hz])]
    rfl

theorem foldl_setEntry {k : Ty} (xs : List (Val × Val)) : ∀ acc : List (Val × Val),
    (acc ++ xs).Pairwise (fun x y => k.keyEq x.1 y.1 = false) →
    xs.foldl (fun m x => setEntry k x m) acc = acc ++ xs := by
  induction xs with
  | nil => simp
  | cons x xs ih =>
    intro acc h
    rw [List.foldl_cons, setEntry_fresh, ih (acc ++ [x]) (by simpa using h)]
    · simp
    · intro y hy
      rw [List.pairwise_append] at h
      exact h.2.2 y hy x (by simp)

theorem decPlain_r {e : Encoding} {k : Kind} {opt : Opt} {bs : Bytes} {a : Val}
    (h : RD e (decScalar e k (ord e opt.order)) bs a) : RDat e opt.order (decPlain e k opt) bs a := h.at _

/-- The part of `Returns` about structs. -/
def RetStruct (e : Encoding) (fs : Fields) (vs : List Val) : Prop :=
  if e = .borsh ∧ fs.isEnum then
    match vs with
    | .uint n :: _ => ReturnsNth e fs (n + 1) vs
    | _ => False
  else ReturnsFields e fs [] false vs

def copyStruct (e : Encoding) (fs : Fields) (vs : List Val) : Val :=
  if e = .borsh ∧ fs.isEnum then
    match vs with
    | .uint n :: _ => .struct (.uint n :: (copyNth e fs (n + 1) vs).tail)
    | _ => .struct vs
  else .struct (copyFields e fs vs)

theorem decStruct_r {e : Encoding} {fs : Fields} {vs : List Val} {fields : DM (List Val)} {nth : Nat → DM (List Val)}
    (h : EncStruct e fs vs) (hr : RetStruct e fs vs)
    (hf : EncodableFields e fs [] vs → ReturnsFields e fs [] false vs →
      RD e fields (wireFields e fs [] vs) (copyFields e fs vs))
    (hn : ∀ i, e = .borsh → EncodableNth e fs i vs → ReturnsNth e fs i vs →
      RD e (nth i) (wireNth e fs i vs) (copyNth e fs i vs)) :
    RD e (decStruct e fs fields nth) (structWire e fs vs) (copyStruct e fs vs) := by
  unfold EncStruct at h
  unfold RetStruct at hr
  unfold decStruct structWire copyStruct
  by_cases hc : e = .borsh ∧ fs.isEnum = true
  · rw [if_pos hc] at h hr ⊢
    rw [if_pos hc, if_pos hc]
    split at h
    · rename_i n vs'
      simp only [] at hr ⊢
      have hl := wireNth_length fs (n + 1) _ h.2
      rw [fixed_one]
      refine (readUint8_reads e n h.1).rd.bind ?_
      rw [if_neg (by omega)]
      exact (hn (n + 1) hc.1 h.2 hr).bind_pure (f := fun vs => Val.struct (.uint n :: vs.tail))
    · exact h.elim
  · rw [if_neg hc] at h hr ⊢
    rw [if_neg hc, if_neg hc]
    exact (hf h hr).bind_pure (f := Val.struct)

/-- The end-of-input test of an extension field that occupies bytes. -/
theorem RD.ext {e : Encoding} {α : Type} {m : FieldMeta} {f : Bool → DM α} {bs : Bytes} {a : α} (hb : m.tag.binExt = true → bs ≠ [])
    (h : RD e (f false) bs a) : RD e (extensionEnds m >>= f) bs a := by
  unfold extensionEnds
  by_cases hb' : m.tag.binExt = true
  · rw [if_pos hb']
    intro d tail he ho hr hc
    rw [M.bind_ok (noBytesLeft_r ho (by rw [hr]; simp [hb hb']))]
    exact h d tail he ho hr hc
  · rw [if_neg hb']
    exact h

theorem RD.ext_any {e : Encoding} {α : Type} {m : FieldMeta} {f : Bool → DM α} {bs : Bytes} {a : α}
    (h : ∀ c, RD e (f c) bs a) : RD e (extensionEnds m >>= f) bs a := by
  unfold extensionEnds
  by_cases hb' : m.tag.binExt = true
  · rw [if_pos hb']
    intro d tail he ho hr hc
    have : noBytesLeft d = (.ok (d.rest.length == 0), d) := by
      unfold noBytesLeft
      rw [M.bind_ok (restM_ok ho)]; rfl
    rw [M.bind_ok this]
    exact h _ d tail he ho hr hc
  · rw [if_neg hb']
    exact h _

theorem zeros_fields (fs : Fields) : (Val.struct fs.zeros).fields fs = fs.zeros := rfl

theorem lookup_announce {m : FieldMeta} {t : Ty} {v : Val} {sm sm' : List (Bytes × Int)} (h : announce m t v sm = some sm')
    (hn : m.tag.sizeOf ≠ [] → m.tag.sizeOf ≠ m.name) : lookupSize m.name sm' = lookupSize m.name sm := by
  unfold announce at h
  by_cases h0 : m.tag.sizeOf = []
  · rw [if_pos h0] at h
    simp only [Option.some.injEq] at h
    rw [h]
  · rw [if_neg h0] at h
    split at h
    · simp only [Option.some.injEq] at h
      subst h
      conv => lhs; unfold lookupSize
      rw [if_neg (hn h0)]
    · cases h

/-- The decoder records the size that the encoder announced. -/
theorem announce_copy {e : Encoding} {m : FieldMeta} {t : Ty} {v : Val} {sm sm' : List (Bytes × Int)}
    (h : announce m t v sm = some sm') :
    announce m t (if absent e m t v then t.zero else copy e t v) sm = some sm' := by
  unfold announce at h ⊢
  by_cases h0 : m.tag.sizeOf = []
  · rw [if_pos h0] at h ⊢; exact h
  · rw [if_neg h0] at h ⊢
    cases hs : sizeofVal t.kind v with
    | ok n =>
      rw [hs] at h
      by_cases ha : absent e m t v
      · rw [if_pos ha, sizeof_zero t v ha.1 hs]; exact h
      · rw [if_neg ha, sizeof_copy t v hs]; exact h
    | err x => rw [hs] at h; cases h
    | panic => rw [hs] at h; cases h

theorem directLib_cases {t : Ty} {l : Lib} {b : Bool} (h : t.directLib = some (l, b)) :
    (t = .lib l ∧ b = false) ∨ (t = .ptr (.lib l) ∧ b = true) := by
  cases t <;> simp only [Ty.directLib] at h <;> try contradiction
  · simp only [Option.some.injEq, Prod.mk.injEq] at h
    obtain ⟨rfl, rfl⟩ := h; exact Or.inl ⟨rfl, rfl⟩
  · rename_i t
    cases t <;> simp only [Ty.asLib] at h <;> try contradiction
    simp only [Option.some.injEq, Prod.mk.injEq] at h
    obtain ⟨rfl, rfl⟩ := h; exact Or.inr ⟨rfl, rfl⟩

theorem directLib_asLib {t : Ty} (h : t.directLib = none) : t.asLib = none := by
  cases t <;> simp_all [Ty.directLib, Ty.asLib]

mutual
theorem decCore_r {e : Encoding} (hv : e.valid = true) : (t : Ty) → (opt : Opt) → (v : Val) →
    (e = .borsh → opt.order = .le) → Encodable e t opt.sizeOf v → Returns e t opt.sizeOf.isSome v →
    RDat e opt.order (decCore e t opt t.zero) (wire e t opt.order opt.sizeOf.isSome v) (copy e t v)
  | .bool, opt, v, ho, h, hr => by
    cases v <;> simp only [Encodable] at h
    rename_i b
    simp only [decCore, wire, copy]
    refine decPlain_r ?_
    have := (readBool_reads e (if b = true then 1 else 0)).bind_pure (f := Val.bool)
    cases b <;> exact this.rd
  | .uint w _, opt, v, ho, h, hr => by
    cases v <;> simp only [Encodable] at h
    simp only [decCore, wire, copy]
    exact decPlain_r (decUint_r w _ _ h)
  | .int w _, opt, v, ho, h, hr => by
    cases v <;> simp only [Encodable] at h
    simp only [decCore, wire, copy]
    exact decPlain_r (decInt_r w _ _ h.1 h.2)
  | .borshEnum, opt, v, ho, h, hr => by
    cases v <;> simp only [Encodable] at h
    simp only [decCore, wire, copy]
    rw [fixed_one]
    have := decUint_r (e := e) .w8 (ord e opt.order) _ h
    rw [show Width.w8.bytes = 1 from rfl, fixed_one'] at this
    exact decPlain_r this
  | .f32, opt, v, ho, h, hr => by
    cases v <;> simp only [Encodable] at h
    rename_i n
    simp only [decCore, wire, copy]
    refine decPlain_r ?_
    rw [fixed_eq]
    have := (readFloat32_reads e (ord e opt.order) n h.1 (by
      rintro ⟨he, hn⟩; rw [h.2.2 he] at hn; cases hn)).bind_pure (f := fun n => Val.float (f32ViaF64 n))
    rw [f32ViaF64_eq h.2.1] at this
    exact this.rd
  | .f64, opt, v, ho, h, hr => by
    cases v <;> simp only [Encodable] at h
    rename_i n
    simp only [decCore, wire, copy]
    refine decPlain_r ?_
    rw [fixed_eq]
    exact ((readFloat64_reads e (ord e opt.order) n h.1 (by
      rintro ⟨he, hn⟩; rw [h.2 he] at hn; cases hn)).bind_pure (f := Val.float)).rd
  | .str, opt, v, ho, h, hr => by
    cases v <;> simp only [Encodable] at h
    simp only [Returns] at hr
    simp only [decCore, wire, copy]
    exact decPlain_r (decStr_r hv _ _ hr)
  | .lib l, opt, v, ho, h, hr => by
    simp only [Encodable] at h
    simp only [Returns] at hr
    simp only [decCore, wire, copy, Ty.zero]
    exact unmarshalLib_r hv l _ v h hr
  | .ptr t, opt, v, ho, h, hr => by
    cases v <;> simp only [Encodable] at h
    rename_i p
    simp only [Returns] at hr
    cases p with
    | none => exact hr.2.elim
    | some x =>
      obtain ⟨hs, hr⟩ := hr
      simp only [decCore, copy, Ty.zero, Val.deref, Option.map_some]
      have hw : wire e (.ptr t) opt.order opt.sizeOf.isSome (.ptr (some x)) =
          wire e t opt.order opt.sizeOf.isSome x := by
        conv => lhs; unfold wire
        by_cases hb : e = .borsh ∧ t.asLib = none
        · rw [if_pos hb, ho hb.1, hs hb.1]; rfl
        · rw [if_neg hb]
      rw [hw]
      refine (decCore_r hv t opt x ho ?_ hr).bind_pure (f := fun x => Val.ptr (some x))
      by_cases hb : e = .borsh
      · rw [if_pos hb] at h
        have := hs hb
        cases hz : opt.sizeOf with
        | none => exact h
        | some s => rw [hz] at this; cases this
      · rw [if_neg hb] at h; exact h
  | .slice t, opt, v, ho, h, hr => by
    cases v <;> simp only [Encodable] at h
    rename_i xs
    simp only [Returns] at hr
    obtain ⟨hsz, hel⟩ := h
    obtain ⟨hmax0, hrt⟩ := hr
    have hmax' : (xs.getD []).length ≤ 2 ^ 31 - 1 := by
      have := readMax_lt e
      split at hmax0 <;> omega
    have hbody : RD e
        (if e = .borsh ∧ ((xs.getD []).length : Int) = 0 then pure (Ty.slice t).zero
        else do
          let d ← M.get
          if ((xs.getD []).length : Int) > d.remaining then M.err .eof
          else
            match t.uintKind with
            | some w => do
              let ys ← readUints ((xs.getD []).length : Int) w
              pure (.seq (some ys))
            | none => do
              let ys ← repeatM (do setCurD .le; decCore e t {} t.zero) ((xs.getD []).length : Int).toNat
              pure (.seq (some ys)))
        ((xs.getD []).flatMap fun x =>
          match t.uintKind with
          | some w => uintWire w x
          | none => wire e t .le false x)
        (copy e (.slice t) (.seq xs)) := by
      unfold copy
      by_cases hz : e = .borsh ∧ (xs.getD []).isEmpty = true
      · have hnil : xs.getD [] = [] := List.isEmpty_iff.mp hz.2
        rw [if_pos hz, if_pos ⟨hz.1, by rw [hnil]; rfl⟩, hnil]
        exact RD.pure _
      · have hz' : ¬ (e = .borsh ∧ ((xs.getD []).length : Int) = 0) := by
          rintro ⟨h1, h2⟩
          exact hz ⟨h1, List.isEmpty_iff.mpr (List.length_eq_zero_iff.mp (by omega))⟩
        rw [if_neg hz, if_neg hz']
        cases hu : t.uintKind with
        | some w =>
          simp only [hu] at hel ⊢
          have h1 := readUints_r (e := e) w (xs.getD []) hel (by omega)
          refine RD.enough ?_ ?_
          · rw [List.length_flatMap]
            have : ∀ ys : List Val, (∀ y ∈ ys, UintElem w y) → ys.length ≤ (ys.map fun y => (uintWire w y).length).sum := by
              intro ys hy
              induction ys with
              | nil => simp
              | cons y ys ih =>
                have hy1 := hy y (by simp)
                have hy2 := ih fun z hz => hy z (by simp [hz])
                cases y <;> simp only [UintElem] at hy1
                have h1 : 1 ≤ w.bytes := by cases w <;> decide
                rw [List.length_cons, List.map_cons, List.sum_cons]
                rename_i n
                have h2 : (uintWire w (.uint n)).length = w.bytes := by simp [uintWire]
                omega
            exact Int.ofNat_le.mpr (this _ hel)
          · rw [List.map_id'']
            · exact h1.bind_pure (f := fun xs => Val.seq (some xs))
            · intro x; rfl
        | none =>
          simp only [hu] at hel hrt ⊢
          refine RD.enough (Int.ofNat_le.mpr hrt.1) ?_
          rw [Int.toNat_natCast]
          exact (RD.repeat (f := (do setCurD .le; decCore e t {} t.zero))
            (g := fun x => wire e t .le false x) (h := fun x => copy e t x) (xs.getD []) fun x hx =>
              RDat.set (fun _ => rfl) (decCore_r hv t {} x (fun _ => rfl) (hel x hx) (hrt.2 x hx))).bind_pure
                (f := fun xs => Val.seq (some xs))
    simp only [decCore, wire]
    cases hs : opt.sizeOf with
    | some s =>
      simp only [hs] at hsz
      subst hsz
      simp only [Option.isSome_some, if_true, List.nil_append]
      exact hbody.at _
    | none =>
      simp only [Option.isSome_none, Bool.false_eq_true, if_false]
      rw [hs] at hmax0
      exact ((readSeqLen_r hv _ hmax0).rd.bind hbody).at _
  | .array n t, opt, v, ho, h, hr => by
    cases v <;> simp only [Encodable] at h
    rename_i xs
    simp only [Returns] at hr
    obtain ⟨rfl, hel⟩ := h
    simp only [decCore, wire, copy, Ty.zero, Val.elems]
    cases hu : t.uintKind with
    | some w =>
      simp only [hu] at hel hr ⊢
      have h1 := readUints_r (e := e) w xs hel hr
      rw [List.map_id'']
      · exact (h1.bind_pure (f := Val.arr)).at _
      · intro x; rfl
    | none =>
      simp only [hu] at hel hr ⊢
      exact ((RD.traverse (f := fun x => do setCurD .le; decCore e t {} x)
        (g := fun x => wire e t .le false x) (h := fun x => copy e t x) t.zero xs fun x hx =>
          RDat.set (fun _ => rfl) (decCore_r hv t {} x (fun _ => rfl) (hel x hx) (hr x hx))).bind_pure
            (f := Val.arr)).at _
  | .map k t, opt, v, ho, h, hr => by
    cases v <;> simp only [Encodable] at h
    rename_i m
    simp only [Returns] at hr
    obtain ⟨-, -, -, hk⟩ := h
    obtain ⟨hmax, hd, hkr⟩ := hr
    have hp := entries_perm e k (m.getD [])
    have hlen := hp.length_eq
    simp only [decCore, wire, copy, Ty.zero]
    refine RD.at ?_ _
    refine (readSeqLen_r hv _ hmax).rd.bind ?_
    by_cases hz : (m.getD []).isEmpty = true
    · have hnil : m.getD [] = [] := List.isEmpty_iff.mp hz
      have hnil' : entries e k (m.getD []) = [] := by
        rw [← List.length_eq_zero_iff, hlen, hnil]; rfl
      rw [if_pos hz, if_pos (by rw [hnil]; rfl), hnil']
      exact RD.pure _
    · have hz' : ¬ (m.getD []).length = 0 := fun h => hz (List.isEmpty_iff.mpr (List.length_eq_zero_iff.mp h))
      rw [if_neg hz, if_neg hz', ← hlen]
      have h1 := RD.repeat (e := e)
        (f := do
          setCurD .le
          let x ← decCore e k {} k.zero
          setCurD .le
          let y ← decCore e t {} t.zero
          pure (x, y))
        (g := fun x : Val × Val => wire e k .le false x.1 ++ wire e t .le false x.2)
        (h := fun x => (copy e k x.1, copy e t x.2)) (entries e k (m.getD [])) fun x hx => by
          have hm := hp.mem_iff.mp hx
          refine RDat.set (fun _ => rfl) ?_
          refine (decCore_r hv k {} x.1 (fun _ => rfl) (hk x hm).2.1 (hkr x hm).1).bind ?_
          refine RDat.set (fun _ => rfl) ?_
          exact (decCore_r hv t {} x.2 (fun _ => rfl) (hk x hm).2.2 (hkr x hm).2).bind_pure
            (f := fun y => (copy e k x.1, y))
      have h2 := h1.bind_pure (f := fun xs => Val.map (some (xs.foldl (fun m x => setEntry k x m) [])))
      rw [foldl_setEntry _ [] (by rw [List.nil_append, List.pairwise_map]; exact hd), List.nil_append] at h2
      exact h2
  | .struct fs, opt, v, ho, h, hr => by
    cases v <;> simp only [Encodable] at h
    rename_i vs
    simp only [Returns] at hr
    simp only [decCore, wire, copy, Ty.zero, zeros_fields]
    exact (decStruct_r h hr (fun h hr => by simpa using decFields_r hv fs [] false vs h (by simpa using hr))
      (fun i hb h hr => decNth_r hv fs i vs h hr)).at _
  | .iface, opt, v, ho, h, hr => by
    cases v <;> simp only [Encodable] at h
    simp only [decCore, wire, copy, Ty.zero]
    exact (RD.pure _).at _
  | .plainInt, opt, v, ho, h, hr => by simp [Encodable] at h
  | .plainUint, opt, v, ho, h, hr => by simp [Encodable] at h
  | .other, opt, v, ho, h, hr => by simp [Encodable] at h
termination_by structural t => t
theorem decFields_r {e : Encoding} (hv : e.valid = true) : (fs : Fields) → (sm : List (Bytes × Int)) → (seen : Bool) →
    (vs : List Val) → EncodableFields e fs sm vs → ReturnsFields e fs (sm.map (·.1)) seen vs →
    RD e (decFields e fs sm seen fs.zeros) (wireFields e fs (sm.map (·.1)) vs) (copyFields e fs vs)
  | .nil, sm, seen, vs, h, hr => by
    simp only [decFields, wireFields, copyFields]
    exact RD.pure _
  | .cons m t fs, sm, seen, [], h, hr => by simp [EncodableFields] at h
  | .cons m t fs, sm, seen, v :: vs, h, hr => by
    simp only [EncodableFields] at h
    simp only [ReturnsFields] at hr
    simp only [Fields.zeros, decFields, wireFields, copyFields]
    by_cases hsk : m.tag.skip = true
    · rw [if_pos hsk] at h hr ⊢
      rw [if_pos hsk, if_pos (Or.inl hsk)]
      exact (decFields_r hv fs sm seen vs h hr).bind_pure (f := fun rest => t.zero :: rest)
    · rw [if_neg hsk] at h hr ⊢
      rw [if_neg hsk]
      obtain ⟨hseen, hfld, hrest⟩ := hr
      rw [if_neg (by
        intro hc
        simp only [Bool.and_eq_true, Bool.not_eq_true'] at hc
        rw [hseen hc.2] at hc; exact absurd hc.1 (by decide))]
      cases ha : announce m t v sm with
      | none => simp only [ha] at h
      | some sm' =>
        simp only [ha] at h
        obtain ⟨-, r2⟩ := recordSize_announce (σ := Dec) ha
        have hih := fun hrest => decFields_r hv fs sm' (seen || m.tag.binExt) vs h.2 hrest
        rw [← r2] at hih
        have hih := hih hrest
        by_cases hx : m.exported = true
        · rw [if_pos hx] at hfld ⊢
          obtain ⟨hle, hext, hsz, hop, hcop, hret⟩ := hfld
          have hcond : ((m.tag.skip = true ∨ m.exported = false ∨ absent e m t v) ↔ absent e m t v) := by
            simp [hsk, hx]
          have hval : (if m.tag.skip = true ∨ m.exported = false ∨ absent e m t v then t.zero else copy e t v) =
              if absent e m t v then t.zero else copy e t v := by simp only [hcond]
          rw [hval]
          have hext' : m.tag.binExt = true → fieldWire e m t v
              (wire e t m.tag.order ((announced m (sm.map (·.1))).contains m.name) v) ++
                wireFields e fs (announced m (sm.map (·.1))) vs ≠ [] := by
            intro hbe h0; exact hext hbe (List.append_eq_nil_iff.mp h0).1
          refine RD.ext hext' ?_
          simp only [hx, Bool.not_true, Bool.or_false, Bool.false_eq_true, if_false]
          cases hdl : (if e = .borsh then t.directLib else none) with
          | some lp =>
            obtain ⟨l, b⟩ := lp
            have hbo : e = .borsh := by
              by_cases hb : e = .borsh
              · exact hb
              · rw [if_neg hb] at hdl; cases hdl
            rw [if_pos hbo] at hdl
            have hno : m.tag.option = false := by
              cases hoo : m.tag.option with
              | false => rfl
              | true => rw [(hop hoo).2 hbo] at hdl; cases hdl
            have hnc : m.tag.coption = false := by
              cases hoo : m.tag.coption with
              | false => rfl
              | true => rw [(hcop hbo hoo).1] at hdl; cases hdl
            have hns : m.tag.sizeOf = [] := by
              by_cases hoo : m.tag.sizeOf = []
              · exact hoo
              · rw [(hsz hoo).2 hbo] at hdl; cases hdl
            have hsm : sm' = sm := by
              unfold announce at ha
              rw [if_pos hns] at ha
              simpa using ha.symm
            subst hsm
            have hab : ¬ absent e m t v := by
              rintro ⟨-, h1 | h1⟩
              · rw [hno] at h1; cases h1
              · rw [hnc] at h1; cases h1.2
            rw [if_neg hab]
            have hfw : fieldWire e m t v (wire e t m.tag.order
                ((announced m (sm'.map (·.1))).contains m.name) v) =
                wire e t m.tag.order ((announced m (sm'.map (·.1))).contains m.name) v := by
              unfold fieldWire; simp [hno, hnc]
            rw [hfw]
            have henc := h.1 hx hab
            replace hret := hret hab
            have key : ∃ x, LibEnc e l x ∧ LibRet e l x ∧
                wire e t m.tag.order ((announced m (sm'.map (·.1))).contains m.name) v = libWire e l .le x ∧
                (if b = true then Val.ptr (some (copyLib x)) else copyLib x) = copy e t v := by
              rcases directLib_cases hdl with ⟨rfl, rfl⟩ | ⟨rfl, rfl⟩
              · simp only [Encodable] at henc
                simp only [Returns] at hret
                refine ⟨v, henc, hret, by rw [wire_lib, hle hbo], ?_⟩
                simp [copy]
              · cases v <;> simp only [Encodable] at henc
                rename_i p
                simp only [Returns] at hret
                cases p with
                | none => exact hret.2.elim
                | some x =>
                  simp only [Returns, Encodable] at hret henc
                  refine ⟨x, henc, hret.2, ?_, by simp [copy]⟩
                  unfold wire
                  rw [if_neg (by simp [Ty.asLib])]
                  simp only [wire_lib, hle hbo]
            obtain ⟨x, k1, k2, k3, k4⟩ := key
            rw [k3, ← k4]
            have hu : RD e (unmarshalLib l l.zero) (libWire e l .le x) (copyLib x) := by
              intro d tail he ho' hr hb
              exact unmarshalLib_r hv l .le x k1 k2 d tail he ho' hr hb (hb hbo)
            exact hu.bind (hih.bind_pure (f := fun rest => (if b = true then Val.ptr (some (copyLib x)) else copyLib x) :: rest))
          | none =>
            have hdn : e = .borsh → t.directLib = none := fun hb => by rw [if_pos hb] at hdl; exact hdl
            have hf := field_r hv m t v sm (core := decCore e t (fieldOpt m sm) t.zero)
              (body := wire e t m.tag.order (lookupSize m.name sm).isSome v) (a := copy e t v) hle
              (fun ho => (hop ho).1) (fun hb hc => ⟨directLib_asLib (hdn hb), (hcop hb hc).2⟩)
              (fun hab => by
                have hl := lookup_announce ha (fun h0 => (hsz h0).1)
                refine decCore_r hv t (fieldOpt m sm) v hle ?_ ?_
                · have := h.1 hx hab
                  rw [hl] at this; exact this
                · have := hret hab
                  rw [r2, ← lookupSize_isSome, hl] at this; exact this)
            have hw : (announced m (sm.map (·.1))).contains m.name = (lookupSize m.name sm).isSome := by
              rw [r2, ← lookupSize_isSome, lookup_announce ha (fun h0 => (hsz h0).1)]
            rw [hw]
            refine hf.bind ?_
            rw [(recordSize_announce (σ := Dec) (announce_copy (e := e) ha)).1]
            exact hih.bind_pure (f := fun rest => (if absent e m t v then t.zero else copy e t v) :: rest)
        · rw [if_neg hx] at hfld ⊢
          have hcond : (m.tag.skip = true ∨ m.exported = false ∨ absent e m t v) := Or.inr (Or.inl (by simpa using hx))
          rw [if_pos hcond]
          refine RD.ext_any fun c => ?_
          rw [if_pos (by simp [hx])]
          have hsm : sm' = sm := by
            unfold announce at ha
            rw [if_pos hfld] at ha
            simpa using ha.symm
          subst hsm
          exact hih.bind_pure (f := fun rest => t.zero :: rest)
termination_by structural fs => fs
theorem decNth_r {e : Encoding} (hv : e.valid = true) : (fs : Fields) → (i : Nat) → (vs : List Val) →
    EncodableNth e fs i vs → ReturnsNth e fs i vs → RD e (decNth e fs i fs.zeros) (wireNth e fs i vs) (copyNth e fs i vs)
  | .nil, i, vs, h, hr => by simp [EncodableNth] at h
  | .cons _ t fs, 0, [], h, hr => by simp [EncodableNth] at h
  | .cons _ t fs, i + 1, [], h, hr => by simp [EncodableNth] at h
  | .cons _ t fs, 0, v :: vs, h, hr => by
    simp only [EncodableNth] at h
    simp only [ReturnsNth] at hr
    simp only [Fields.zeros, decNth, wireNth, copyNth]
    refine RDat.set (fun _ => rfl) ?_
    exact (decCore_r hv t {} v (fun _ => rfl) h.2 hr).bind_pure (f := fun x => x :: fs.zeros)
  | .cons _ t fs, i + 1, v :: vs, h, hr => by
    simp only [EncodableNth] at h
    simp only [ReturnsNth] at hr
    simp only [Fields.zeros, decNth, wireNth, copyNth]
    exact (decNth_r hv fs i vs h hr).bind_pure (f := fun rest => t.zero :: rest)
termination_by structural fs => fs
end

theorem decode_r {e : Encoding} (hv : e.valid = true) (t : Ty) (v : Val) (h : Encodable e t none v)
    (hr : Returns e t false v) (d : Dec) (tail : Bytes) (he : d.enc = e) (ho : d.Ok)
    (hrest : d.rest = wire e t .le false v ++ tail) :
    ∃ c, decode t t.zero d = (.ok (copy e t v), d.to (wire e t .le false v).length c) := by
  unfold decode
  rw [M.bind_apply, M.get_apply]
  simp only []
  rw [if_neg (by rw [he]; rintro rfl; cases hv), he]
  obtain ⟨c, -, hc⟩ := decCore_r hv t {} v (fun _ => rfl) h hr { d with cur := some .le } tail he ho hrest
    (fun _ => rfl) rfl
  refine ⟨c, ?_⟩
  simp only [setCurD, M.bind_apply, M.modify_apply]
  exact hc

end Verif
