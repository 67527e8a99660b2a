import Verif.Proofs.KeyEq
import Verif.Proofs.Canonical
import Verif.Spec.Restore
import Verif.Proofs.Utf8
import Verif.Proofs.Same
import Verif.Proofs.Inert
import Verif.Model.Interface
/-!
What the decoder returns for a restorable type can be encoded and read back.
-/
set_option linter.unusedSimpArgs false
namespace Verif
open Spec

section
variable {e : Encoding} {o : Order} {α : Type}

theorem Prim.took (hv : e.valid = true) {r : DM α} (h : Prim r) : Took e r fun _ _ => True := by
  intro d ho he a d' hr
  obtain ⟨res, k, h1, h2, h3⟩ := h d ho (by rw [he]; exact hv)
  rw [hr] at h1
  simp only [Prod.mk.injEq] at h1
  refine ⟨d.rest.take k, d.rest.drop k, (List.take_append_drop _ _).symm, ?_, trivial⟩
  rw [List.length_take, Nat.min_eq_left h3]; exact h1.2

/-- Repetition, keeping track of how much was consumed. -/
theorem Got.times {f : DM α} {P : Bytes → α → Prop} (h : ∀ o, Got e o f P) (n : Nat) :
    ∀ o, Got e o (repeatM f n) fun bs xs => xs.length = n ∧ (∀ x ∈ xs, ∃ b, b.length ≤ bs.length ∧ P b x) ∧
      ((∀ b x, P b x → b ≠ []) → n ≤ bs.length) := by
  induction n with
  | zero => intro o; exact Got.pure _ ⟨rfl, by simp, by simp⟩
  | succ n ih =>
    intro o
    unfold repeatM
    refine (h o).bind fun b1 a o1 h1 => (ih o1).map fun b2 xs h2 => ?_
    obtain ⟨h3, h4, h5⟩ := h2
    refine ⟨by simp [h3], ?_, ?_⟩
    · intro x hx
      rcases List.mem_cons.mp hx with rfl | hx
      · exact ⟨b1, by simp, h1⟩
      · obtain ⟨b, hb, hp⟩ := h4 x hx
        exact ⟨b, by simp; omega, hp⟩
    · intro hne
      have := h5 hne
      have : 0 < b1.length := List.length_pos_iff.mpr (hne _ _ h1)
      simp; omega

theorem Got.through {γ : Type} {f : γ → DM α} {P : Bytes → α → Prop} (ys : List γ) (h : ∀ y ∈ ys, ∀ o, Got e o (f y) P) :
    ∀ o, Got e o (traverseM f ys) fun bs xs => xs.length = ys.length ∧ (∀ x ∈ xs, ∃ b, b.length ≤ bs.length ∧ P b x) ∧
      ((∀ b x, P b x → b ≠ []) → ys.length ≤ bs.length) := by
  induction ys with
  | nil => intro o; exact Got.pure _ ⟨rfl, by simp, by simp⟩
  | cons y ys ih =>
    intro o
    unfold traverseM
    refine (h y (by simp) o).bind fun b1 a o1 h1 => (ih (fun y hy => h y (by simp [hy])) o1).map fun b2 xs h2 => ?_
    obtain ⟨h3, h4, h5⟩ := h2
    refine ⟨by simp [h3], ?_, ?_⟩
    · intro x hx
      rcases List.mem_cons.mp hx with rfl | hx
      · exact ⟨b1, by simp, h1⟩
      · obtain ⟨b, hb, hp⟩ := h4 x hx
        exact ⟨b, by simp; omega, hp⟩
    · intro hne
      have := h5 hne
      have : 0 < b1.length := List.length_pos_iff.mpr (hne _ _ h1)
      simp; omega

/-! ### scalars -/

theorem fixed_ne_nil (o : Order) (k n : Nat) (h : 0 < k) : fixed o k n ≠ [] := by
  intro hh
  have := fixed_length o k n
  rw [hh] at this; simp at this; omega

theorem compact_ne_nil (n : Nat) : compact n ≠ [] := by
  unfold compact; split <;> (try split) <;> simp

theorem varint_ne_nil (n : Nat) : varint n ≠ [] := by
  unfold varint; split <;> simp

theorem lenPrefix_ne_nil (hv : e.valid = true) (n : Nat) : lenPrefix e n ≠ [] := by
  cases e
  · exact varint_ne_nil n
  · exact compact_ne_nil n
  · exact fixed_ne_nil .le 4 n (by decide)
  · cases hv

theorem strPrefix_ne_nil (hv : e.valid = true) (n : Nat) : strPrefix e n ≠ [] := by
  unfold strPrefix
  split
  · exact fixed_ne_nil _ _ _ (by decide)
  · exact lenPrefix_ne_nil hv n

theorem groups_ne_nil {bs : Bytes} (h : Groups bs) : bs ≠ [] := by
  rintro rfl; simp [Groups] at h

theorem f32_lt {n : Nat} (h : n < 2 ^ 32) : f32ViaF64 n < 2 ^ 32 := by
  unfold f32ViaF64
  split
  · exact Nat.or_lt_two_pow h (by decide)
  · exact h

theorem f32_quiet (n : Nat) : ¬ signalling32 (f32ViaF64 n) := by
  rintro ⟨h1, h2⟩
  unfold f32ViaF64 at h1 h2
  split at h2
  · have := Nat.testBit_or n (2 ^ 22) 22
    rw [Nat.testBit_two_pow_self, Bool.or_true, Nat.testBit, Nat.shiftRight_eq_div_pow] at this
    simp only [Nat.one_and_eq_mod_two, bne_iff_ne, ne_eq] at this
    exact this h2
  · rename_i h; rw [if_neg h] at h1; exact h h1

theorem readFlag_took (hv : e.valid = true) : Took e (readFlag e) fun bs _ => bs ≠ [] := by
  have hb : Took e readByte fun bs _ => bs ≠ [] := readByte_took.weaken fun bs b h => by rw [h]; simp
  cases e
  · exact (readUint32_took .le).map fun bs n h => by rw [h.2]; exact fixed_ne_nil _ _ _ (by decide)
  · exact hb.map fun bs b h => h
  · exact hb.map fun bs b h => h
  · cases hv

theorem readSeqLen_took (hv : e.valid = true) : Took e (readSeqLen e) fun bs n => bs ≠ [] ∧ (e ≠ .borsh → n ≤ readMax e) := by
  cases e
  · intro d ho he a d' hr
    simp only [readSeqLen] at hr
    rw [readLength_enc, he] at hr
    exact (readUvarint64_took.bind (Q := fun bs n => bs ≠ [] ∧ (Encoding.bin ≠ .borsh → n ≤ readMax .bin)) fun p n hn =>
      Took.ite (fun _ => Took.err _) fun hle => Took.pure _ (by
        rw [List.append_nil]
        exact ⟨groups_ne_nil hn.1, fun _ => by simp only [readMax]; omega⟩)) d ho he a d' hr
  · exact readCompactU16_took.weaken fun bs n h => ⟨by rw [h.1]; exact compact_ne_nil n, fun _ => h.2⟩
  · exact (readUint32_took .le).weaken fun bs n h => ⟨by rw [h.2]; exact fixed_ne_nil _ _ _ (by decide), fun h => absurd rfl h⟩
  · cases hv

theorem readByteSlice_took (hv : e.valid = true) : Took e readByteSlice fun bs b =>
    b.length < bs.length ∧ b.length ≤ readMax e := by
  rw [readByteSlice_def]
  refine Took.bind (P := fun bs n => bs ≠ [] ∧ n ≤ readMax e) ?_ fun b1 n hn =>
    (sliceBody_took n).weaken fun bs b h => by
      obtain ⟨rfl, rfl⟩ := h
      have := List.length_pos_iff.mpr hn.1
      exact ⟨by simp; omega, hn.2⟩
  intro d ho hd a d' h
  rw [readLength_enc, hd] at h
  have key : ∀ (r : DM Nat), Took e r (fun bs n => bs ≠ [] ∧ n ≤ readMax e) → r d = (.ok a, d') →
      ∃ bs tail, d.rest = bs ++ tail ∧ d' = d.adv bs.length ∧ bs ≠ [] ∧ a ≤ readMax e :=
    fun r hr => hr d ho hd a d'
  cases e with
  | other => cases hv
  | bin =>
    refine key _ (readUvarint64_took.bind fun p n hn => Took.ite (fun _ => Took.err _) fun hle => Took.pure _ ?_) h
    rw [List.append_nil]
    exact ⟨groups_ne_nil hn.1, by simp only [readMax]; omega⟩
  | borsh =>
    refine key _ ((readUint32_took .le).bind fun p n hn => Took.ite (fun _ => Took.err _) fun hle => Took.pure _ ?_) h
    rw [List.append_nil]
    exact ⟨by rw [hn.2]; exact fixed_ne_nil _ _ _ (by decide), by simp only [readMax]; omega⟩
  | compactU16 =>
    refine key _ (readCompactU16_took.weaken fun p n hn => ⟨by rw [hn.1]; exact compact_ne_nil n, hn.2⟩) h

theorem Repaired.length_le {s t : Bytes} (h : Repaired s t) : t.length ≤ 3 * s.length := by
  induction h with
  | nil => simp
  | keep r s t _ _ ih =>
    have := List.length_append (as := utf8 r) (bs := s)
    simp; omega
  | replace b s t _ _ ih => simp [utf8]; omega

theorem toSigned_lt {b n : Nat} (hb : 0 < b) (h : n < 2 ^ b) : -2 ^ (b - 1) ≤ toSigned b n ∧ toSigned b n < 2 ^ (b - 1) :=
  toSigned_range hb h

theorem readVarint64_took : Took e readVarint64 fun bs _ => bs ≠ [] := by
  intro d ho he a d' h
  rw [readVarint64_eq ho] at h
  rcases goUvarint_cases d.rest with ⟨h', -⟩ | ⟨bs, t, hb, hg, h1, h10, hlt, hres⟩
  · rw [if_pos h'] at h; simp at h
  · rw [hres, if_neg (by show ¬ ((bs.length : Int) ≤ 0); omega)] at h
    simp only [Prod.mk.injEq, Res.ok.injEq, Int.toNat_natCast] at h
    exact ⟨bs, t, hb, h.2.symm, List.length_pos_iff.mp (by omega)⟩

theorem readBool_took : Took e readBool fun bs _ => bs ≠ [] := by
  intro d ho he a d' h
  rw [readBool_eq ho] at h
  cases hr : d.rest with
  | nil => rw [hr] at h; simp at h
  | cons b t =>
    rw [hr] at h
    simp only [Prod.mk.injEq] at h
    exact ⟨[b], t, rfl, h.2.symm, by simp⟩

theorem unmarshalLib_fits (hv : e.valid = true) (l : Lib) (hl : restorableLib e l = true) (old : Val) (ho : l = .emptyVariant → old = .struct []) :
    Got e o (unmarshalLib l old) fun bs v => (l ≠ .emptyVariant → bs ≠ []) ∧ (bs.length < 2 ^ 29 → LibEnc e l v ∧ LibRet e l v) := by
  have hne : ∀ {b n : Nat}, n < b → 0 < b := fun h => by omega
  cases l <;> simp only [unmarshalLib]
  case safeString =>
    have hc : e ≠ .compactU16 := by simpa [restorableLib] using hl
    have hr : 2 ^ 31 - 1 = readMax e := by cases e <;> first | rfl | exact absurd rfl hc
    have hm : 2 ^ 31 - 1 ≤ maxLen e := by cases e <;> first | decide | (exact absurd rfl hc) | cases hv
    unfold safeReadUTF8String
    refine Took.got (Took.map (P := fun bs s => bs ≠ [] ∧ (bs.length < 2 ^ 29 → s.length ≤ 2 ^ 31 - 1 ∧ Utf8 s)) ?_ fun bs s h => ?_)
    · refine (readByteSlice_took hv).map fun bs b h => ⟨List.length_pos_iff.mp (by omega), fun hs => ?_⟩
      have := Repaired.length_le (fixUtf8_repaired b)
      exact ⟨by omega, (fixUtf8_repaired b).utf8⟩
    · exact ⟨fun _ => h.1, fun hs => ⟨Nat.le_trans (h.2 hs).1 hm, by rw [← hr]; exact (h.2 hs).1, (h.2 hs).2⟩⟩
  case bool =>
    exact readBool_took.got.map fun bs b h => ⟨fun _ => h, fun _ => ⟨trivial, trivial⟩⟩
  case hexBytes =>
    refine (readByteSlice_took hv).got.map fun bs b h => ⟨fun _ => List.length_pos_iff.mp (by omega), fun hs => ?_⟩
    refine ⟨?_, h.2⟩
    simp only [LibEnc, Option.getD_some]
    cases e <;> simp only [readMax, maxLen] at h ⊢ <;> first | omega | cases hv
  case varint16 =>
    unfold readVarint16
    refine Took.got (Took.map (P := fun bs z => bs ≠ [] ∧ -2 ^ 15 ≤ z ∧ z < 2 ^ 15)
      (readVarint64_took.map fun bs z h => ⟨h, toSigned_lt (by decide) (toUnsigned_lt 16 z)⟩) fun bs z h => ?_)
    exact ⟨fun _ => h.1, fun _ => ⟨h.2, trivial⟩⟩
  case varint32 =>
    unfold readVarint32
    refine Took.got (Took.map (P := fun bs z => bs ≠ [] ∧ -2 ^ 31 ≤ z ∧ z < 2 ^ 31)
      (readVarint64_took.map fun bs z h => ⟨h, toSigned_lt (by decide) (toUnsigned_lt 32 z)⟩) fun bs z h => ?_)
    exact ⟨fun _ => h.1, fun _ => ⟨h.2, trivial⟩⟩
  case varuint16 =>
    unfold readUvarint16
    refine Took.got (Took.map (P := fun bs n => bs ≠ [] ∧ n < 2 ^ 16)
      (readUvarint64_took.map fun bs n h => ⟨groups_ne_nil h.1, Nat.mod_lt _ (by decide)⟩) fun bs n h => ?_)
    exact ⟨fun _ => h.1, fun _ => ⟨h.2, trivial⟩⟩
  case varuint32 =>
    exact readUvarint64_took.got.map fun bs n h => ⟨fun _ => groups_ne_nil h.1, fun _ => ⟨Nat.mod_lt _ (by decide), trivial⟩⟩
  case jsonFloat64 =>
    refine Got.get fun d0 _ _ hc => ?_
    rw [hc]
    exact (readFloat64_took o).got.map fun bs n h =>
      ⟨fun _ => by rw [h.2.1]; exact fixed_ne_nil _ _ _ (by decide), fun _ => ⟨⟨h.1, h.2.2⟩, trivial⟩⟩
  case int64 =>
    refine Got.get fun d0 _ _ hc => ?_
    rw [hc]
    exact (readInt64_took o).got.map fun bs n h =>
      ⟨fun _ => by rw [h.2.2]; exact fixed_ne_nil _ _ _ (by decide), fun _ => ⟨⟨h.1, h.2.1⟩, trivial⟩⟩
  case uint64 =>
    refine Got.get fun d0 _ _ hc => ?_
    rw [hc]
    exact (readUint64_took o).got.map fun bs n h =>
      ⟨fun _ => by rw [h.2]; exact fixed_ne_nil _ _ _ (by decide), fun _ => ⟨h.1, trivial⟩⟩
  case uint128 | int128 | float128 =>
    refine Got.get fun d0 _ _ hc => ?_
    rw [hc, order128_some]
    exact (readUint128_took o).got.map fun bs n h =>
      ⟨fun _ => by rw [h.2.2]; exact fixed_ne_nil _ _ _ (by decide), fun _ => ⟨⟨h.1, h.2.1⟩, trivial⟩⟩
  case emptyVariant =>
    rw [ho rfl]
    exact Got.pure _ ⟨fun h => absurd rfl h, fun _ => ⟨rfl, trivial⟩⟩

end

/-! ### the encoding of an occupying type is not empty -/

theorem libWire_ne_nil {e : Encoding} (hv : e.valid = true) (l : Lib) (hl : l ≠ .emptyVariant) (o : Order) (v : Val)
    (h : LibEnc e l v) : libWire e l o v ≠ [] := by
  cases l <;> cases v <;> simp only [LibEnc] at h <;> simp only [libWire, ne_eq, List.append_eq_nil_iff, not_and]
  case safeString.str | hexBytes.bytes => exact fun h => absurd h (lenPrefix_ne_nil hv _)
  case bool.bool => simp
  case varint16.int | varint32.int | varuint16.uint | varuint32.uint => exact varint_ne_nil _
  case emptyVariant.struct => exact absurd rfl hl
  all_goals exact fixed_ne_nil _ _ _ (by decide)

mutual
theorem wire_ne_nil {e : Encoding} (hv : e.valid = true) : (t : Ty) → (o : Order) → (size : Option Int) → (v : Val) →
    occupies e t size.isSome = true → Encodable e t size v → Returns e t size.isSome v → wire e t o size.isSome v ≠ []
  | .bool, o, size, v, hoc, h, hr => by
    cases v <;> simp only [Encodable] at h
    simp [wire]
  | .uint w _, o, size, v, hoc, h, hr => by
    cases v <;> simp only [Encodable] at h
    simp only [wire]; exact fixed_ne_nil _ _ _ (by cases w <;> decide)
  | .int w _, o, size, v, hoc, h, hr => by
    cases v <;> simp only [Encodable] at h
    simp only [wire]; exact fixed_ne_nil _ _ _ (by cases w <;> decide)
  | .borshEnum, o, size, v, hoc, h, hr => by
    cases v <;> simp only [Encodable] at h
    simp only [wire]; exact fixed_ne_nil _ _ _ (by decide)
  | .f32, o, size, v, hoc, h, hr => by
    cases v <;> simp only [Encodable] at h
    simp only [wire]; exact fixed_ne_nil _ _ _ (by decide)
  | .f64, o, size, v, hoc, h, hr => by
    cases v <;> simp only [Encodable] at h
    simp only [wire]; exact fixed_ne_nil _ _ _ (by decide)
  | .str, o, size, v, hoc, h, hr => by
    cases v <;> simp only [Encodable] at h
    simp only [wire, ne_eq, List.append_eq_nil_iff, not_and]
    exact fun h => absurd h (strPrefix_ne_nil hv _)
  | .lib l, o, size, v, hoc, h, hr => by
    simp only [Encodable] at h
    simp only [occupies, bne_iff_ne, ne_eq] at hoc
    rw [wire_lib]
    exact libWire_ne_nil hv l hoc o v h
  | .ptr t, o, size, v, hoc, h, hr => by
    cases v <;> simp only [Encodable] at h
    rename_i p
    simp only [occupies] at hoc
    simp only [Returns] at hr
    cases p with
    | none => exact hr.2.elim
    | some x =>
      simp only [] at h hr
      have hs : e = .borsh → size = none := by
        intro hb
        have := hr.1 hb
        cases size <;> simp_all
      simp only [wire]
      split
      · rename_i hb
        rw [hs hb.1] at hoc hr h
        have := wire_ne_nil hv t .le none x hoc (by simpa using h) hr.2
        exact this
      · refine wire_ne_nil hv t o size x hoc ?_ hr.2
        by_cases hb : e = .borsh
        · rw [if_pos hb] at h; rw [hs hb]; exact h
        · rw [if_neg hb] at h; exact h
  | .slice t, o, size, v, hoc, h, hr => by
    cases v <;> simp only [Encodable] at h
    simp only [occupies, Bool.not_eq_true'] at hoc
    simp only [wire, hoc, Bool.false_eq_true, if_false, ne_eq, List.append_eq_nil_iff, not_and]
    exact fun h => absurd h (lenPrefix_ne_nil hv _)
  | .array n t, o, size, v, hoc, h, hr => by
    cases v <;> simp only [Encodable] at h
    rename_i xs
    simp only [occupies, Bool.and_eq_true, bne_iff_ne, ne_eq, Bool.or_eq_true] at hoc
    simp only [Returns] at hr
    simp only [wire]
    cases xs with
    | nil => exact absurd h.1.symm hoc.1
    | cons x xs =>
      have hx := h.2 x (by simp)
      rw [List.flatMap_cons]
      cases hu : t.uintKind with
      | some w =>
        rw [hu] at hx
        simp only [] at hx ⊢
        cases x <;> simp only [UintElem] at hx
        simp only [uintWire, ne_eq, List.append_eq_nil_iff, not_and]
        exact fun h => absurd h (fixed_ne_nil _ _ _ (by cases w <;> decide))
      | none =>
        rw [hu] at hx hr
        simp only [] at hx hr ⊢
        rw [hu] at hoc
        have := wire_ne_nil hv t .le none x (by simpa using hoc.2) hx (hr x (by simp))
        simp only [ne_eq, List.append_eq_nil_iff, not_and]
        exact fun h => absurd h this
  | .map k t, o, size, v, hoc, h, hr => by
    cases v <;> simp only [Encodable] at h
    simp only [wire, ne_eq, List.append_eq_nil_iff, not_and]
    exact fun h => absurd h (lenPrefix_ne_nil hv _)
  | .struct fs, o, size, v, hoc, h, hr => by
    cases v <;> simp only [Encodable] at h
    rename_i vs
    simp only [occupies, Bool.or_eq_true, Bool.and_eq_true, beq_iff_eq] at hoc
    simp only [Returns] at hr
    simp only [wire]
    by_cases he : e = .borsh ∧ fs.isEnum = true
    · rw [if_pos he] at h ⊢
      cases vs with
      | nil => exact h.elim
      | cons v vs =>
        cases v <;> simp only [] at h
        simp only [ne_eq, List.append_eq_nil_iff, not_and]
        exact fun h => absurd h (fixed_ne_nil _ _ _ (by decide))
    · rw [if_neg he] at h hr ⊢
      exact wireFields_ne_nil hv fs [] false vs (hoc.resolve_left he) h hr
  | .plainInt, _, _, _, hoc, _, _ | .plainUint, _, _, _, hoc, _, _ | .iface, _, _, _, hoc, _, _
  | .other, _, _, _, hoc, _, _ => by simp [occupies] at hoc
termination_by structural t => t
theorem wireFields_ne_nil {e : Encoding} (hv : e.valid = true) : (fs : Fields) → (sm : List (Bytes × Int)) → (seen : Bool) →
    (vs : List Val) → occupiesFields e fs (sm.map (·.1)) = true → EncodableFields e fs sm vs →
    ReturnsFields e fs (sm.map (·.1)) seen vs → wireFields e fs (sm.map (·.1)) vs ≠ []
  | .nil, _, _, _, hoc, _, _ => by simp [occupiesFields] at hoc
  | .cons m t fs, sm, seen, [], hoc, h, hr => by simp [EncodableFields] at h
  | .cons m t fs, sm, seen, v :: vs, hoc, h, hr => by
    simp only [occupiesFields] at hoc
    simp only [EncodableFields] at h
    simp only [ReturnsFields] at hr
    simp only [wireFields]
    by_cases hk : m.tag.skip = true
    · rw [if_pos hk] at hoc h hr ⊢
      exact wireFields_ne_nil hv fs sm seen vs hoc h hr
    rw [if_neg hk] at hoc h hr ⊢
    cases ha : announce m t v sm with
    | none => rw [ha] at h; exact h.elim
    | some sm' =>
      rw [ha] at h
      simp only [] at h
      obtain ⟨hf, hrest⟩ := h
      obtain ⟨-, hfr, hrr⟩ := hr
      have hn := announce_names ha
      rw [← hn] at hrr hoc ⊢
      simp only [Bool.or_eq_true, Bool.and_eq_true, beq_iff_eq] at hoc
      by_cases hexp : m.exported = true
      · rw [if_pos hexp] at hfr ⊢
        rcases hoc with ⟨_, hoc⟩ | hoc
        · have : fieldWire e m t v (wire e t m.tag.order ((sm'.map (·.1)).contains m.name) v) ≠ [] := by
            have hfl : ∀ b, flag e b ≠ [] := fun b => fixed_ne_nil _ _ _ (by split <;> decide)
            have hcf : ∀ b, cflag b ≠ [] := fun b => fixed_ne_nil _ _ _ (by decide)
            unfold fieldWire
            by_cases ho : m.tag.option = true
            · split
              · exact hfl _
              · simp only [ne_eq, List.append_eq_nil_iff, not_and]
                exact fun h => absurd h (hfl _)
            · rw [if_neg (fun h => ho h.1), if_neg ho, List.nil_append]
              by_cases hco : e = .borsh ∧ m.tag.coption = true
              · rw [if_pos hco]
                split
                · exact hcf _
                · simp only [ne_eq, List.append_eq_nil_iff, not_and]
                  exact fun h => absurd h (hcf _)
              · rw [if_neg hco]
                have hoc' := (hoc.resolve_left (fun h => h.elim ho hco))
                have hna : ¬ absent e m t v := by
                  rintro ⟨_, h | h⟩
                  · exact ho h
                  · exact hco h
                have hsz : (sm'.map (·.1)).contains m.name = (lookupSize m.name sm').isSome := by rw [lookupSize_isSome]
                rw [hsz] at hoc' ⊢
                rw [← hsz] at hoc'
                have h6 := hfr.2.2.2.2.2 hna
                rw [← hn, hsz] at h6
                rw [hsz] at hoc'
                exact wire_ne_nil hv t m.tag.order (lookupSize m.name sm') v hoc' (hf hexp hna) h6
          simp only [ne_eq, List.append_eq_nil_iff, not_and]
          exact fun h => absurd h this
        · have := wireFields_ne_nil hv fs sm' _ vs hoc hrest hrr
          simp only [ne_eq, List.append_eq_nil_iff, not_and]
          exact fun _ => this
      · rw [if_neg hexp]
        exact wireFields_ne_nil hv fs sm' _ vs (hoc.resolve_left fun h => hexp h.1) hrest hrr
termination_by structural fs => fs
end

/-! ### map keys -/

theorem setEntry_pairwise {k : Ty} {x : Val × Val} : (m : List (Val × Val)) →
    m.Pairwise (fun a b => k.keyEq a.1 b.1 = false) → (setEntry k x m).Pairwise (fun a b => k.keyEq a.1 b.1 = false)
  | [], _ => by simp [setEntry]
  | y :: ys, h => by
    unfold setEntry
    by_cases hk : k.keyEq y.1 x.1 = true
    · rw [if_pos hk]
      rw [List.pairwise_cons] at h ⊢
      refine ⟨fun z hz => ?_, h.2⟩
      cases hz' : k.keyEq x.1 z.1 with
      | false => rfl
      | true => rw [← h.1 z hz, keyEq_trans k hk hz']
    · rw [if_neg hk]
      rw [List.pairwise_cons] at h ⊢
      refine ⟨?_, setEntry_pairwise ys h.2⟩
      exact fun z hz => setEntry_all (P := fun z => k.keyEq y.1 z.1 = false) (k := k) (x := x)
        (by simpa using hk) h.1 z hz

theorem foldl_setEntry_pairwise {k : Ty} (xs : List (Val × Val)) : ∀ acc : List (Val × Val),
    acc.Pairwise (fun a b => k.keyEq a.1 b.1 = false) →
    (xs.foldl (fun m x => setEntry k x m) acc).Pairwise (fun a b => k.keyEq a.1 b.1 = false) := by
  induction xs with
  | nil => exact fun _ h => h
  | cons x xs ih => exact fun acc h => ih _ (setEntry_pairwise acc h)

theorem setEntry_length {k : Ty} {x : Val × Val} (m : List (Val × Val)) : (setEntry k x m).length ≤ m.length + 1 := by
  induction m with
  | nil => simp [setEntry]
  | cons y ys ih => unfold setEntry; split <;> simp; omega

theorem foldl_setEntry_length {k : Ty} (xs : List (Val × Val)) : ∀ acc : List (Val × Val),
    (xs.foldl (fun m x => setEntry k x m) acc).length ≤ acc.length + xs.length := by
  induction xs with
  | nil => simp
  | cons x xs ih =>
    intro acc
    have := ih (setEntry k x acc)
    have := setEntry_length (k := k) (x := x) acc
    simp only [List.foldl_cons, List.length_cons]; omega

/-- Values of a plain key type. -/
theorem plainKey_cases {e : Encoding} {k : Ty} (hk : plainKey k = true) {v : Val} (h : Encodable e k none v) :
    (∃ b, v = .bool b ∧ k = .bool) ∨ (∃ n, v = .uint n ∧ ((∃ w nm, k = .uint w nm) ∨ k = .borshEnum)) ∨
    (∃ z, v = .int z ∧ ∃ w nm, k = .int w nm) ∨ (∃ s, v = .str s ∧ k = .str) := by
  cases k <;> simp only [plainKey] at hk <;> (try contradiction) <;> cases v <;> simp only [Encodable] at h <;>
    (try contradiction)
  · exact Or.inl ⟨_, rfl, rfl⟩
  · exact Or.inr (Or.inl ⟨_, rfl, Or.inl ⟨_, _, rfl⟩⟩)
  · exact Or.inr (Or.inr (Or.inl ⟨_, rfl, _, _, rfl⟩))
  · exact Or.inr (Or.inl ⟨_, rfl, Or.inr rfl⟩)
  · exact Or.inr (Or.inr (Or.inr ⟨_, rfl, rfl⟩))

theorem plainKey_keyEq {e : Encoding} {k : Ty} (hk : plainKey k = true) {v w : Val} (h : Encodable e k none v)
    (h' : Encodable e k none w) : k.keyEq v w = true ↔ v = w := by
  rcases plainKey_cases hk h with ⟨b, rfl, hh⟩ | ⟨n, rfl, hh⟩ | ⟨z, rfl, hh⟩ | ⟨s, rfl, hh⟩ <;>
  rcases plainKey_cases hk h' with ⟨b', rfl, hh'⟩ | ⟨n', rfl, hh'⟩ | ⟨z', rfl, hh'⟩ | ⟨s', rfl, hh'⟩ <;>
  first
    | (subst hh; simp [Ty.keyEq, Lib.keyEq, Val.plainEq]; done)
    | (obtain ⟨_, _, rfl⟩ := hh; simp [Ty.keyEq, Lib.keyEq, Val.plainEq]; done)
    | (rcases hh with ⟨_, _, rfl⟩ | rfl <;> simp [Ty.keyEq, Lib.keyEq, Val.plainEq])

theorem plainKey_copy {e : Encoding} {k : Ty} (hk : plainKey k = true) (v : Val) : copy e k v = v := by
  cases k <;> simp only [plainKey] at hk <;> (try contradiction) <;> simp [copy]

theorem plainKey_occupies {e : Encoding} {k : Ty} (hk : plainKey k = true) : occupies e k false = true := by
  cases k <;> simp only [plainKey] at hk <;> (try contradiction) <;> simp [occupies]

theorem plainKey_restorable {e : Encoding} {k : Ty} (hk : plainKey k = true) : restorable e k false = true := by
  cases k <;> simp only [plainKey] at hk <;> (try contradiction) <;> simp [restorable]

/-! ### the induction -/

/-- A primitive read leaves the current field option alone. -/
theorem Took.then {α β : Type} {e : Encoding} {o : Order} {r : DM α} {f : α → DM β} {P : Bytes → α → Prop}
    {Q : Bytes → β → Prop} (h1 : Took e r P)
    (h2 : ∀ b1 a, P b1 a → Got e o (f a) fun b2 b => Q (b1 ++ b2) b) : Got e o (r >>= f) Q := by
  intro d ho he hc hb b d' hr
  rw [M.bind_apply] at hr
  cases hd : r d with
  | mk res d1 =>
    rw [hd] at hr
    cases res with
    | err x => simp at hr
    | panic => simp at hr
    | ok a =>
      obtain ⟨b1, t1, hr1, rfl, hp⟩ := h1 d ho he a d1 hd
      obtain ⟨b2, t2, c, hr2, rfl, hcl, hq⟩ := h2 b1 a hp _ (Dec.adv_ok_append ho hr1) he hc hb b d' hr
      rw [Dec.adv_rest_append ho hr1] at hr2
      exact ⟨b1 ++ b2, t2, c, by rw [hr1, hr2, List.append_assoc], by simp [Dec.adv_eq_to], hcl, hq⟩

mutual
/-- As a decoder leaves it in a fresh variable. -/
def Norm (e : Encoding) : Ty → Val → Prop
  | .lib _, v => copyLib v = v
  | .ptr t, .ptr p =>
    match p with
    | none => False
    | some x => Norm e t x
  | .slice t, .seq xs =>
    (if e = .borsh then xs ≠ some [] else xs ≠ none) ∧ (t.uintKind = none → ∀ x ∈ xs.getD [], Norm e t x)
  | .array _ t, .arr xs => t.uintKind = none → ∀ x ∈ xs, Norm e t x
  | .map _ t, .map m => m ≠ some [] ∧ ∀ x ∈ m.getD [], Norm e t x.2
  | .struct fs, .struct vs =>
    if e = .borsh ∧ fs.isEnum then
      match vs with
      | .uint n :: _ => NormTail e fs n vs
      | _ => False
    else NormFields e fs vs
  | _, _ => True
def NormFields (e : Encoding) : Fields → List Val → Prop
  | .nil, vs => vs = []
  | .cons m t fs, v :: vs =>
    (if m.tag.skip = true ∨ m.exported = false then v = t.zero
     else Norm e t v ∨ ((m.tag.option = true ∨ (e = .borsh ∧ m.tag.coption = true)) ∧ v = t.zero)) ∧ NormFields e fs vs
  | _, _ => False
def NormTail (e : Encoding) : Fields → Nat → List Val → Prop
  | .cons _ _ fs, i, _ :: vs => NormNth e fs i vs
  | _, _, _ => False
def NormNth (e : Encoding) : Fields → Nat → List Val → Prop
  | .cons _ t fs, 0, v :: vs => Norm e t v ∧ vs = fs.zeros
  | .cons _ t fs, i + 1, v :: vs => v = t.zero ∧ NormNth e fs i vs
  | _, _, _ => False
end

theorem foldl_setEntry_ne {k : Ty} (xs : List (Val × Val)) : ∀ acc : List (Val × Val), xs ≠ [] ∨ acc ≠ [] →
    xs.foldl (fun m x => setEntry k x m) acc ≠ [] := by
  induction xs with
  | nil => intro acc h; simpa using h
  | cons x xs ih =>
    intro acc _
    refine ih _ (Or.inr ?_)
    cases acc with
    | nil => simp [setEntry]
    | cons y ys => simp only [setEntry]; split <;> simp

theorem unmarshalLib_norm (l : Lib) : Post (unmarshalLib l l.zero) fun v => copyLib v = v := by
  cases l <;> simp only [unmarshalLib]
  case uint128 | int128 | float128 => exact Post.after fun _ => Post.after fun _ => Post.pure rfl
  case emptyVariant => exact Post.pure rfl
  case jsonFloat64 | int64 | uint64 =>
    refine Post.after fun d => ?_
    split
    · exact Post.panic
    · exact Post.after fun _ => Post.pure rfl
  all_goals exact Post.after fun _ => Post.pure rfl

theorem Got.post {α : Type} {e : Encoding} {o : Order} {r : DM α} {P : Bytes → α → Prop} {Q : α → Prop} (h : Got e o r P)
    (hq : Post r Q) : Got e o r fun bs a => P bs a ∧ Q a := by
  intro d ho he hc hb a d' hr
  obtain ⟨bs, tail, c, h1, h2, h3, h4⟩ := h d ho he hc hb a d' hr
  exact ⟨bs, tail, c, h1, h2, h3, h4, hq d a d' hr⟩

/-- What decoding a value of type `t` from the bytes `bs` promises. -/
def Storable (e : Encoding) (t : Ty) (size : Option Int) (bs : Bytes) (v : Val) : Prop :=
  (occupies e t size.isSome = true → bs ≠ []) ∧
  (bs.length < 2 ^ 29 → Encodable e t size v ∧ Returns e t size.isSome v ∧ Norm e t v)

theorem flatMap_length_ge {g : Val → Bytes} (xs : List Val) (h : ∀ x ∈ xs, g x ≠ []) : xs.length ≤ (xs.flatMap g).length := by
  induction xs with
  | nil => simp
  | cons x xs ih =>
    have := ih fun y hy => h y (by simp [hy])
    have := List.length_pos_iff.mpr (h x (by simp))
    simp only [List.flatMap_cons, List.length_append, List.length_cons]; omega

theorem uintElem_ne_nil {w : Width} {x : Val} (h : UintElem w x) : uintWire w x ≠ [] := by
  cases x <;> simp only [UintElem] at h
  simp only [uintWire]
  exact fixed_ne_nil _ _ _ (by cases w <;> decide)

mutual
theorem decCore_fits {e : Encoding} (hv : e.valid = true) : (t : Ty) → (opt : Opt) →
    restorable e t opt.sizeOf.isSome = true → (∀ s, opt.sizeOf = some s → 0 ≤ s) →
    Got e opt.order (decCore e t opt t.zero) (Storable e t opt.sizeOf)
  | .bool, opt, _, _ => by
    simp only [decCore, decPlain, decScalar]
    exact readBool_took.got.map fun bs b h => ⟨fun _ => h, fun _ => ⟨by simp only [Encodable], by simp only [Returns], by simp only [Norm]⟩⟩
  | .uint w b, opt, _, _ => by
    simp only [decCore, decPlain]
    refine (decUint_got w _).got.weaken fun bs v h => ?_
    obtain ⟨n, rfl, h1, rfl⟩ := h
    exact ⟨fun _ => fixed_ne_nil _ _ _ (by cases w <;> decide), fun _ => ⟨by simpa only [Encodable] using h1, by simp only [Returns], by simp only [Norm]⟩⟩
  | .int w b, opt, _, _ => by
    simp only [decCore, decPlain]
    refine (decInt_got w _).got.weaken fun bs v h => ?_
    obtain ⟨n, rfl, h1, rfl⟩ := h
    exact ⟨fun _ => fixed_ne_nil _ _ _ (by cases w <;> decide), fun _ => ⟨by simpa only [Encodable] using h1, by simp only [Returns], by simp only [Norm]⟩⟩
  | .borshEnum, opt, _, _ => by
    simp only [decCore, decPlain]
    refine (decUint_got .w8 _).got.weaken fun bs v h => ?_
    obtain ⟨n, rfl, h1, rfl⟩ := h
    exact ⟨fun _ => fixed_ne_nil _ _ _ (by decide), fun _ => ⟨by simp only [Encodable]; exact h1, by simp only [Returns], by simp only [Norm]⟩⟩
  | .f32, opt, hc, _ => by
    simp only [decCore, decPlain, decScalar]
    refine (readFloat32_took _).got.map fun bs n h => ⟨fun _ => by rw [h.2.1]; exact fixed_ne_nil _ _ _ (by decide), fun _ => ?_⟩
    refine ⟨?_, by simp only [Returns], by simp only [Norm]⟩
    simp only [Encodable]
    refine ⟨f32_lt h.1, f32_quiet n, fun hb => ?_⟩
    have := h.2.2 hb
    unfold f32ViaF64
    rw [if_neg (by simp [this])]; exact this
  | .f64, opt, _, _ => by
    simp only [decCore, decPlain, decScalar]
    refine (readFloat64_took _).got.map fun bs n h => ⟨fun _ => by rw [h.2.1]; exact fixed_ne_nil _ _ _ (by decide), fun _ => ?_⟩
    exact ⟨by simp only [Encodable]; exact ⟨h.1, h.2.2⟩, by simp only [Returns], by simp only [Norm]⟩
  | .str, opt, _, _ => by
    simp only [decCore, decPlain, decScalar]
    refine Took.got (Took.map (P := fun bs s => bs ≠ [] ∧ s.length ≤ readMax e) ?_ fun bs s h => ⟨fun _ => h.1, fun _ => ?_⟩)
    · split
      · rename_i hb
        subst hb
        unfold readRustString
        refine (readUint64_took .le).bind fun p n hn => Took.ite (fun _ => Took.err _) fun hle =>
          (readNBytes_took n).weaken fun bs b h => ?_
        obtain ⟨rfl, h1, h2⟩ := h
        refine ⟨?_, by simp only [readMax]; omega⟩
        rw [hn.2]
        simp only [ne_eq, List.append_eq_nil_iff, not_and]
        exact fun h => absurd h (fixed_ne_nil _ _ _ (by decide))
      · exact (readByteSlice_took hv).weaken fun bs b h => ⟨List.length_pos_iff.mp (by omega), h.2⟩
    · simp only [Encodable, Returns, Norm]
      refine ⟨?_, h.2, trivial⟩
      have := h.2
      cases e <;> simp only [readMax, maxStr, maxLen] at this ⊢ <;> first | omega | cases hv
  | .lib l, opt, hc, _ => by
    simp only [restorable] at hc
    simp only [decCore, Ty.zero]
    refine ((unmarshalLib_fits hv l hc l.zero (by rintro rfl; rfl)).post (unmarshalLib_norm l)).weaken fun bs v h => ?_
    refine ⟨fun ho => h.1.1 (by simpa [occupies] using ho), fun hs => ?_⟩
    simp only [Encodable, Returns, Norm]
    exact ⟨(h.1.2 hs).1, (h.1.2 hs).2, h.2⟩
  | .ptr t, opt, hc, hs => by
    simp only [restorable, Bool.and_eq_true] at hc
    have hsz : e = .borsh → opt.sizeOf = none := by
      intro h
      have := hc.1
      rw [h] at this
      cases ho : opt.sizeOf <;> simp_all
    simp only [decCore, Ty.zero, Val.deref]
    refine (decCore_fits hv t opt hc.2 hs).map fun bs v h => ?_
    refine ⟨fun ho => h.1 (by simpa only [occupies] using ho), fun hl => ?_⟩
    obtain ⟨h1, h2, h3⟩ := h.2 hl
    simp only [Encodable, Returns, Norm]
    refine ⟨?_, ⟨fun hb => by rw [hsz hb]; rfl, h2⟩, h3⟩
    split
    · rename_i hb; rw [← hsz hb]; exact h1
    · exact h1
  | .slice t, opt, hc, hs => by
    simp only [restorable, Bool.or_eq_true, Bool.and_eq_true] at hc
    simp only [decCore, Ty.zero]
    have hcont : ∀ (b1 : Bytes) (l : Int), (0 ≤ l ∧ ((opt.sizeOf = some l ∧ b1 = []) ∨
        (opt.sizeOf = none ∧ b1 ≠ [] ∧ (e ≠ .borsh → l.toNat ≤ readMax e)))) → ∀ o',
        Got e o' (if e = .borsh ∧ l = 0 then pure (.seq none)
        else do
          let d ← M.get
          if l > d.remaining then M.err .eof
          else
            match t.uintKind with
            | some w => do
              let xs ← readUints l w
              pure (.seq (some xs))
            | none => do
              let xs ← repeatM (do setCurD .le; decCore e t {} t.zero) l.toNat
              pure (.seq (some xs))) fun bs v => Storable e (.slice t) opt.sizeOf (b1 ++ bs) v := by
      intro b1 l hl o'
      have hfin : ∀ bs (xs : List Val), (xs.length : Int) = l → xs.length ≤ bs.length →
          (bs.length < 2 ^ 29 → ∀ x ∈ xs, match t.uintKind with
            | some w => UintElem w x
            | none => Encodable e t none x ∧ Returns e t false x ∧ Norm e t x) → ∀ ys : Option (List Val), ys.getD [] = xs →
          (if e = .borsh then ys ≠ some [] else ys ≠ none) →
          Storable e (.slice t) opt.sizeOf (b1 ++ bs) (.seq ys) := by
        intro bs xs hx hle hall ys hys hnm
        constructor
        · intro ho
          simp only [occupies, Bool.not_eq_true'] at ho
          rcases hl.2 with ⟨h1, -⟩ | ⟨-, h1, -⟩
          · rw [h1] at ho; cases ho
          · simp only [ne_eq, List.append_eq_nil_iff, not_and]
            exact fun h => absurd h h1
        · intro hsm
          rw [List.length_append] at hsm
          have hall := hall (by omega)
          simp only [Encodable, Returns, Norm, hys]
          have hmax : xs.length ≤ (if opt.sizeOf.isSome = true then 2 ^ 31 - 1 else readMax e) ∧
              (opt.sizeOf = none → xs.length ≤ maxLen e) := by
            have hrm : e ≠ .compactU16 → xs.length ≤ readMax e ∧ xs.length ≤ maxLen e := by
              intro hne
              cases e <;> simp only [readMax, maxLen] <;> first | omega | (exact absurd rfl hne) | cases hv
            have hrc : (e ≠ .borsh → l.toNat ≤ readMax e) → xs.length ≤ readMax e ∧ xs.length ≤ maxLen e := by
              intro h
              by_cases he : e = .compactU16
              · subst he
                have := h (by decide)
                simp only [readMax, maxLen] at this ⊢
                omega
              · exact hrm he
            rcases hl.2 with ⟨h1, -⟩ | ⟨h1, -, h2⟩
            · rw [h1]
              exact ⟨by rw [Option.isSome_some, if_pos rfl]; omega, fun h => by cases h⟩
            · rw [h1]
              exact ⟨(hrc h2).1, fun _ => (hrc h2).2⟩
          have hsz : match opt.sizeOf with
              | none => xs.length ≤ maxLen e
              | some s => s = (xs.length : Int) := by
            rcases hl.2 with ⟨h1, -⟩ | ⟨h1, -, -⟩
            · rw [h1]; exact hx.symm
            · rw [h1]; exact hmax.2 h1
          cases hk : t.uintKind with
          | some w =>
            rw [hk] at hall
            exact ⟨⟨hsz, hall⟩, ⟨hmax.1, trivial⟩, hnm, by simp⟩
          | none =>
            rw [hk] at hall hc
            have hocc : occupies e t false = true := by simpa using (hc.resolve_left (by simp)).1
            refine ⟨⟨hsz, fun x hx => (hall x hx).1⟩, ⟨hmax.1, flatMap_length_ge xs fun x hx => ?_, fun x hx => (hall x hx).2.1⟩,
              hnm, fun _ x hx => (hall x hx).2.2⟩
            exact wire_ne_nil hv t .le none x hocc (hall x hx).1 (hall x hx).2.1
      refine Got.ite (fun h0 => ?_) fun h0 => ?_
      · refine Got.pure _ (hfin [] [] ?_ (by simp) (by simp) none rfl (by simp [h0.1]))
        rw [h0.2]; rfl
      have hnm : ∀ xs : List Val, (xs.length : Int) = l → (if e = .borsh then some xs ≠ some [] else some xs ≠ none) := by
        intro xs hx
        split
        · rename_i he
          intro h
          simp only [Option.some.injEq] at h
          rw [h] at hx
          exact h0 ⟨he, hx.symm⟩
        · simp
      refine Got.get fun d0 _ _ _ => Got.ite (fun _ => Got.err _) fun _ => ?_
      cases hk : t.uintKind with
      | some w =>
        simp only []
        refine (readUints_got l w hl.1).map fun bs xs h => hfin bs xs h.1 ?_ ?_ (some xs) rfl (hnm xs h.1)
        · rw [h.2.1]
          exact flatMap_length_ge xs fun x hx => uintElem_ne_nil (h.2.2 x hx)
        · rw [hk]; exact fun _ => h.2.2
      | none =>
        simp only []
        rw [hk] at hc
        have hct := hc.resolve_left (by simp)
        have hel := decCore_fits hv t {} (by exact hct.2) (by intro s h; cases h)
        have hr := Got.times (e := e) (f := do setCurD .le; decCore e t {} t.zero) (P := Storable e t none)
          (fun o => Got.set (fun _ => rfl) hel) l.toNat o'
        refine hr.map fun bs xs h => hfin bs xs (by have := h.1; have := hl.1; omega) ?_ ?_ (some xs) rfl
          (hnm xs (by have := h.1; have := hl.1; omega))
        · rw [h.1]
          exact h.2.2 fun b x hb => hb.1 hct.1
        · rw [hk]
          intro hs x hx
          obtain ⟨b, hb, hf⟩ := h.2.1 x hx
          exact hf.2 (by omega)
    cases ho : opt.sizeOf with
    | some s =>
      simp only []
      have := hcont [] s ⟨hs s ho, Or.inl ⟨ho, rfl⟩⟩ opt.order
      rw [ho] at this
      exact this
    | none =>
      simp only []
      refine (readSeqLen_took hv).got.bind fun b1 n o' hn => ?_
      have := hcont b1 n ⟨by omega, Or.inr ⟨ho, by simpa using hn⟩⟩ o'
      rw [ho] at this
      exact this
  | .array n t, opt, hc, hs => by
    simp only [restorable, Bool.or_eq_true] at hc
    simp only [decCore, Ty.zero, Val.elems]
    cases hk : t.uintKind with
    | some w =>
      simp only []
      refine (readUints_got n w (by omega)).map fun bs xs h => ?_
      have hle : xs.length ≤ bs.length := by
        rw [h.2.1]; exact flatMap_length_ge xs fun x hx => uintElem_ne_nil (h.2.2 x hx)
      constructor
      · intro ho
        simp only [occupies, Bool.and_eq_true, bne_iff_ne, ne_eq] at ho
        exact List.length_pos_iff.mp (by omega)
      · intro hsm
        simp only [Encodable, Returns, Norm, hk]
        exact ⟨⟨by omega, h.2.2⟩, by omega, by simp⟩
    | none =>
      simp only []
      rw [hk] at hc
      have hel := decCore_fits hv t {} (by simpa using hc) (by intro s h; cases h)
      have hr := Got.through (e := e) (f := fun x => do setCurD .le; decCore e t {} x) (P := Storable e t none)
        (List.replicate n t.zero)
        (fun y hy o => by
          rw [(List.mem_replicate.mp hy).2]
          exact Got.set (fun _ => rfl) hel) opt.order
      refine hr.map fun bs xs h => ?_
      rw [List.length_replicate] at h
      constructor
      · intro ho
        simp only [occupies, Bool.and_eq_true, bne_iff_ne, ne_eq, hk, Bool.or_eq_true] at ho
        have := h.2.2 fun b x hb => hb.1 (by simpa using ho.2)
        exact List.length_pos_iff.mp (by omega)
      · intro hsm
        have hall : ∀ x ∈ xs, Encodable e t none x ∧ Returns e t false x ∧ Norm e t x := by
          intro x hx
          obtain ⟨b, hb, hf⟩ := h.2.1 x hx
          exact hf.2 (by omega)
        simp only [Encodable, Returns, Norm, hk]
        exact ⟨⟨h.1, fun x hx => (hall x hx).1⟩, fun x hx => (hall x hx).2.1, fun _ x hx => (hall x hx).2.2⟩
  | .map k t, opt, hc, hs => by
    simp only [restorable, Bool.and_eq_true] at hc
    obtain ⟨⟨hpk, hok⟩, hct⟩ := hc
    simp only [decCore, Ty.zero]
    have hmapnil : Encodable e (.map k t) opt.sizeOf (.map none) ∧ Returns e (.map k t) opt.sizeOf.isSome (.map none) ∧
        Norm e (.map k t) (.map none) := by
      simp only [Encodable, Returns, Norm, Option.getD_none]
      refine ⟨⟨by simp, ?_, by simp, by simp⟩, ⟨by simp, ?_, by simp⟩, by simp, by simp⟩
      · intro hb; simpa [hb] using hok
      · have : entries e k [] = [] := by unfold entries ascending; split <;> simp
        rw [this]; simp
    refine (readSeqLen_took hv).got.bind fun b1 n o' hn => Got.ite (fun h0 => ?_) fun h0 => ?_
    · refine Got.pure _ ⟨fun _ => by simpa using hn.1, fun _ => hmapnil⟩
    have hkey := decCore_fits hv k {} (by exact plainKey_restorable hpk) (by intro s h; cases h)
    have hval := decCore_fits hv t {} (by exact hct) (by intro s h; cases h)
    have hpair : ∀ o, Got e o (do
        setCurD .le
        let x ← decCore e k {} k.zero
        setCurD .le
        let y ← decCore e t {} t.zero
        pure (x, y)) fun bs p => bs ≠ [] ∧ (bs.length < 2 ^ 29 → (Encodable e k none p.1 ∧ Returns e k false p.1) ∧
          (Encodable e t none p.2 ∧ Returns e t false p.2 ∧ Norm e t p.2)) := by
      intro o
      refine Got.set (o := .le) (fun _ => rfl) (hkey.bind fun c1 x o1 h1 => Got.set (o := .le) (fun _ => rfl) (hval.map fun c2 y h2 => ?_))
      have := h1.1 (plainKey_occupies hpk)
      refine ⟨?_, fun hsm => ?_⟩
      · simp only [ne_eq, List.append_eq_nil_iff, not_and]
        exact fun h => absurd h this
      · rw [List.length_append] at hsm
        exact ⟨⟨(h1.2 (by omega)).1, (h1.2 (by omega)).2.1⟩, h2.2 (by omega)⟩
    refine (Got.times hpair n o').map fun bs xs h => ?_
    have hn' := h.2.2 fun b x hb => hb.1
    refine ⟨fun _ => ?_, fun hsm => ?_⟩
    · simp only [ne_eq, List.append_eq_nil_iff, not_and]
      exact fun h => absurd h hn.1
    rw [List.length_append] at hsm
    have hall := foldl_setEntry_all (P := fun p : Val × Val => (Encodable e k none p.1 ∧ Returns e k false p.1) ∧
      (Encodable e t none p.2 ∧ Returns e t false p.2 ∧ Norm e t p.2)) (k := k) (xs := xs)
      (fun x hx => by
        obtain ⟨b, hb, hf⟩ := h.2.1 x hx
        exact hf.2 (by omega)) (m := []) (by simp)
    have hpw := foldl_setEntry_pairwise (k := k) xs [] List.Pairwise.nil
    have hlen := foldl_setEntry_length (k := k) xs []
    simp only [List.length_nil, Nat.zero_add, h.1] at hlen
    have hne := foldl_setEntry_ne (k := k) xs [] (Or.inl fun h0' => h0 (by rw [← h.1, h0']; rfl))
    generalize xs.foldl (fun m x => setEntry k x m) [] = m at hall hpw hlen hne
    have hmax : m.length ≤ readMax e ∧ m.length ≤ maxLen e := by
      by_cases he : e = .borsh
      · subst he; simp only [readMax, maxLen]; omega
      · have := hn.2 he
        cases e <;> simp only [readMax, maxLen] at this ⊢ <;> first | omega | (exact absurd rfl he) | cases hv
    simp only [Encodable, Returns, Norm, Option.getD_some]
    refine ⟨⟨hmax.2, fun hb => by simpa [hb] using hok, hpw, fun x hx => ⟨?_, (hall x hx).1.1, (hall x hx).2.1⟩⟩, ⟨hmax.1, ?_,
      fun x hx => ⟨(hall x hx).1.2, (hall x hx).2.2.1⟩⟩, by simpa using hne, fun x hx => (hall x hx).2.2.2⟩
    · exact (plainKey_keyEq hpk (hall x hx).1.1 (hall x hx).1.1).mpr rfl
    · have hperm : (entries e k m).Perm m := by
        unfold entries
        split
        · exact ascending_perm k m
        · exact List.Perm.refl _
      have hpw' : m.Pairwise (fun a b => ¬ a.1 = b.1) := by
        refine hpw.imp_of_mem fun {a b} ha hb hab => ?_
        exact fun heq => by
          rw [(plainKey_keyEq hpk (hall a ha).1.1 (hall b hb).1.1).mpr heq] at hab; cases hab
      have hpw'' := hperm.symm.pairwise hpw' (fun {a b} h h' => h h'.symm)
      refine hpw''.imp_of_mem fun {a b} ha hb hab => ?_
      rw [plainKey_copy hpk, plainKey_copy hpk, Bool.eq_false_iff]
      exact fun h => hab ((plainKey_keyEq hpk (hall a (hperm.mem_iff.mp ha)).1.1 (hall b (hperm.mem_iff.mp hb)).1.1).mp h)
  | .struct fs, opt, hc, hs => by
    simp only [restorable] at hc
    simp only [decCore, Ty.zero, zeros_fields]
    unfold decStruct
    by_cases he : e = .borsh ∧ fs.isEnum = true
    · rw [if_pos he] at hc ⊢
      refine readUint8_took.got.bind fun b1 tag o' htag => Got.ite (fun _ => Got.err _) fun hlt => ?_
      cases fs with
      | nil => simp [Fields.length] at hlt
      | cons m t0 fs =>
        simp only [restorableVariants] at hc
        simp only [decNth, Fields.zeros]
        refine Got.bind (P := fun bs vs => ∃ rest, vs = t0.zero :: rest ∧ (bs.length < 2 ^ 29 → EncodableNth e fs tag rest ∧
          ReturnsNth e fs tag rest ∧ NormNth e fs tag rest)) ((decNth_fits hv he.1 fs tag hc o').map fun bs vs h => ⟨vs, rfl, h⟩) ?_
        rintro b2 vs o2 ⟨rest, rfl, h1⟩
        refine Got.pure _ ⟨fun _ => ?_, fun hsm => ?_⟩
        · rw [htag.2]
          simp only [ne_eq, List.append_eq_nil_iff, not_and]
          exact fun h => absurd h (fixed_ne_nil _ _ _ (by decide))
        · simp only [List.length_append, List.length_nil] at hsm
          simp only [Encodable, Returns, Norm, if_pos he, List.tail_cons, EncodableNth, ReturnsNth, NormTail]
          exact ⟨⟨htag.1, (h1 (by omega)).1⟩, (h1 (by omega)).2.1, (h1 (by omega)).2.2⟩
    · rw [if_neg he] at hc ⊢
      refine (decFields_fits hv fs [] hc (by simp) opt.order).map fun bs vs h => ⟨fun ho => h.1 ?_, fun hsm => ?_⟩
      · simp only [occupies, Bool.or_eq_true, Bool.and_eq_true, beq_iff_eq] at ho
        exact ho.resolve_left he
      · simp only [Encodable, Returns, Norm, if_neg he]
        exact h.2 hsm
  | .iface, opt, _, _ => by
    simp only [decCore, Ty.zero]
    exact Got.pure _ ⟨fun h => by simp [occupies] at h, fun _ => ⟨by simp only [Encodable], by simp only [Returns], by simp only [Norm]⟩⟩
  | .plainInt, _, hc, _ | .plainUint, _, hc, _ | .other, _, hc, _ => by
    simp [restorable] at hc
termination_by structural t => t
theorem decFields_fits {e : Encoding} (hv : e.valid = true) : (fs : Fields) → (sm : List (Bytes × Int)) →
    restorableFields e fs (sm.map (·.1)) = true → (∀ p ∈ sm, 0 ≤ p.2) → (o : Order) →
    Got e o (decFields e fs sm false fs.zeros) fun bs vs =>
      (occupiesFields e fs (sm.map (·.1)) = true → bs ≠ []) ∧
      (bs.length < 2 ^ 29 → EncodableFields e fs sm vs ∧ ReturnsFields e fs (sm.map (·.1)) false vs ∧ NormFields e fs vs)
  | .nil, sm, _, _, o => by
    simp only [decFields, Fields.zeros]
    exact Got.pure _ ⟨by simp [occupiesFields], by simp [EncodableFields, ReturnsFields, NormFields]⟩
  | .cons m t fs, sm, hc, hs, o => by
    simp only [restorableFields] at hc
    simp only [decFields, Fields.zeros]
    by_cases hk : m.tag.skip = true
    · rw [if_pos hk] at hc ⊢
      refine (decFields_fits hv fs sm hc hs o).map fun bs vs h => ?_
      simp only [EncodableFields, ReturnsFields, NormFields, occupiesFields, if_pos hk, hk, true_or, if_true, true_and]
      exact h
    rw [if_neg hk] at hc ⊢
    simp only [Bool.and_eq_true, Bool.not_eq_true'] at hc
    obtain ⟨⟨hx, hf⟩, hrest⟩ := hc
    rw [if_neg (by simp)]
    unfold extensionEnds
    rw [if_neg (by simp [hx])]
    have hpb : ∀ (f : Bool → DM (List Val)), ((Pure.pure false : DM Bool) >>= f) = f false := fun f => rfl
    rw [hpb]
    simp only [hx, Bool.or_false, Bool.false_or]
    by_cases hexp : m.exported = true
    · rw [if_pos hexp] at hf
      simp only [Bool.and_eq_true, Bool.not_eq_true', Bool.or_eq_true, bne_iff_ne, ne_eq, beq_iff_eq,
        Bool.eq_false_iff] at hf
      obtain ⟨⟨⟨⟨hord, hopt⟩, hcopt⟩, hsize⟩, hcan⟩ := hf
      have hord' : e = .borsh → m.tag.order = .le := fun h => hord.resolve_left (by simp [h])
      have hopt' : m.tag.option = true → t.asLib = none ∧ (e = .borsh → t.directLib = none ∧ m.tag.coption = false) := by
        intro h
        rcases hopt with h' | ⟨h1, h2⟩
        · exact absurd h h'
        · refine ⟨by simpa using h1, fun hb => ?_⟩
          rcases h2 with h2 | h2
          · exact absurd hb h2
          · exact ⟨by simpa using h2.1, by simpa using h2.2⟩
      have hcopt' : e = .borsh → m.tag.coption = true → t.directLib = none := by
        intro hb h
        rcases hcopt with (h' | h') | h'
        · exact absurd hb h'
        · exact absurd h h'
        · simpa using h'
      simp only [hexp, Bool.not_true]
      rw [if_neg (by simp)]
      -- the rest of the fields, once this one is done
      have hszne : m.tag.sizeOf ≠ [] → m.tag.sizeOf ≠ m.name ∧ (e = .borsh → t.directLib = none) := by
        intro h0
        rcases hsize with h | h
        · exact absurd h h0
        · refine ⟨h.1.2, fun hb => ?_⟩
          rcases h.2 with h' | h'
          · exact absurd hb h'
          · simpa using h'
      have hnext : ∀ (b1 : Bytes) (x : Val) (sm' : List (Bytes × Int)), announce m t x sm = some sm' →
          ((m.tag.option = true ∨ (e = .borsh ∧ m.tag.coption = true) ∨
            occupies e t ((announced m (sm.map (·.1))).contains m.name) = true) → b1 ≠ []) →
          (b1.length < 2 ^ 29 → ¬ absent e m t x → Encodable e t (lookupSize m.name sm) x ∧
            Returns e t ((announced m (sm.map (·.1))).contains m.name) x) →
          (b1.length < 2 ^ 29 → Norm e t x ∨ ((m.tag.option = true ∨ (e = .borsh ∧ m.tag.coption = true)) ∧ x = t.zero)) →
          ∀ o', Got e o' (decFields e fs sm' false fs.zeros >>= fun rest => Pure.pure (x :: rest)) fun bs vs =>
            (occupiesFields e (.cons m t fs) (sm.map (·.1)) = true → b1 ++ bs ≠ []) ∧
            ((b1 ++ bs).length < 2 ^ 29 → EncodableFields e (.cons m t fs) sm vs ∧
              ReturnsFields e (.cons m t fs) (sm.map (·.1)) false vs ∧ NormFields e (.cons m t fs) vs) := by
        intro b1 x sm' ha hx0 hx1 hxn o'
        have hpos : ∀ p ∈ sm', 0 ≤ p.2 := by
          intro p hp
          unfold announce at ha
          by_cases h0 : m.tag.sizeOf = []
          · rw [if_pos h0] at ha; cases ha; exact hs p hp
          · rw [if_neg h0] at ha
            split at ha
            · rename_i n hn
              cases ha
              rcases List.mem_cons.mp hp with rfl | hp
              · rcases hsize with h | h
                · exact absurd h h0
                · exact sizeof_unsigned h.1.1.1 (by simpa using h.1.1.2) hn
              · exact hs p hp
            · cases ha
        have hlook : lookupSize m.name sm' = lookupSize m.name sm :=
          lookup_announce ha fun h0 => (hszne h0).1
        have hnames := announce_names ha
        refine (decFields_fits hv fs sm' (by rw [hnames]; exact hrest) hpos o').map fun bs vs h => ⟨fun hoc => ?_, fun hsm => ?_⟩
        · simp only [occupiesFields, if_neg hk, hexp, Bool.true_and, Bool.or_eq_true, Bool.and_eq_true, beq_iff_eq] at hoc
          simp only [ne_eq, List.append_eq_nil_iff, not_and]
          rcases hoc with hoc | hoc
          · refine fun h => absurd h (hx0 ?_)
            rcases hoc with (h | h) | h
            · exact Or.inl h
            · exact Or.inr (Or.inl h)
            · exact Or.inr (Or.inr h)
          · exact fun _ => h.1 (by rw [hnames]; exact hoc)
        · rw [List.length_append] at hsm
          obtain ⟨h1, h2, h3⟩ := h.2 (by omega)
          rw [hnames] at h2
          have hcond : ¬ (m.tag.skip = true ∨ m.exported = false) := by simp [hk, hexp]
          rw [show NormFields e (.cons m t fs) (x :: vs) = (_ ∧ _) by rw [NormFields, if_neg hcond]]
          simp only [EncodableFields, ReturnsFields, if_neg hk, ha, hexp, hlook, hx, if_true, Bool.or_false]
          refine ⟨⟨fun _ hna => (hx1 (by omega) hna).1, h1⟩, ⟨by simp, ⟨hord', by simp, hszne, fun h => ⟨(hopt' h).1, fun hb => ((hopt' h).2 hb).1⟩,
            fun hb hco => ⟨hcopt' hb hco, fun h => ?_⟩, fun hna => (hx1 (by omega) hna).2⟩, h2⟩,
            hxn (by omega), h3⟩
          rw [((hopt' h).2 hb).2] at hco; cases hco
      have hszof : (announced m (sm.map (·.1))).contains m.name = (lookupSize m.name sm).isSome := by
        rw [lookupSize_isSome]
        unfold announced
        by_cases h0 : m.tag.sizeOf = []
        · rw [if_pos h0]
        · rw [if_neg h0]
          have hne : m.name ≠ m.tag.sizeOf := fun hh => (hszne h0).1 hh.symm
          simp [hne]
      refine Got.assume fun hbo => ?_
      cases hdl : (if e = .borsh then t.directLib else none) with
      | some p =>
        obtain ⟨l, isP⟩ := p
        have hb : e = .borsh := by
          by_cases h : e = .borsh
          · exact h
          · rw [if_neg h] at hdl; cases hdl
        rw [if_pos hb] at hdl
        simp only []
        have hco : m.tag.coption = false := by
          cases h : m.tag.coption with
          | false => rfl
          | true => rw [hcopt' hb h] at hdl; cases hdl
        have hop : m.tag.option = false := by
          cases h : m.tag.option with
          | false => rfl
          | true => rw [((hopt' h).2 hb).1] at hdl; cases hdl
        have hsz : m.tag.sizeOf = [] := by
          by_cases h0 : m.tag.sizeOf = []
          · exact h0
          · rw [(hszne h0).2 hb] at hdl; cases hdl
        have hann : ∀ x, announce m t x sm = some sm := by
          intro x; unfold announce; rw [if_pos hsz]
        have hlib : restorableLib e l = true ∧ ((t = .lib l ∧ isP = false) ∨ (t = .ptr (.lib l) ∧ isP = true ∧
            (announced m (sm.map (·.1))).contains m.name = false)) := by
          rcases directLib_cases hdl with ⟨rfl, rfl⟩ | ⟨rfl, rfl⟩
          · simp only [restorable] at hcan; exact ⟨hcan, Or.inl ⟨rfl, rfl⟩⟩
          · simp only [restorable, Bool.and_eq_true] at hcan
            exact ⟨hcan.2, Or.inr ⟨rfl, rfl, by simpa [hb] using hcan.1⟩⟩
        refine ((unmarshalLib_fits (o := o) hv l hlib.1 l.zero (by rintro rfl; rfl)).post (unmarshalLib_norm l)).bind fun b1 x o1 hx1 => ?_
        obtain ⟨hx1, hxn⟩ := hx1
        refine hnext b1 _ sm (hann _) ?_ ?_ ?_ o1
        · rintro (h | h | h)
          · rw [hop] at h; cases h
          · rw [hco] at h; cases h.2
          · refine hx1.1 ?_
            rcases hlib.2 with ⟨rfl, rfl⟩ | ⟨rfl, rfl, -⟩
            · simpa [occupies] using h
            · simpa [occupies] using h
        · intro hsm _
          rcases hlib.2 with ⟨rfl, rfl⟩ | ⟨rfl, rfl, hn⟩
          · simp only [Encodable, Returns]; exact hx1.2 hsm
          · simp only [Encodable, Returns, if_true]
            exact ⟨(hx1.2 hsm).1, fun _ => hn, (hx1.2 hsm).2⟩
        · intro _
          rcases hlib.2 with ⟨rfl, rfl⟩ | ⟨rfl, rfl, hn⟩
          · simp only [Norm]; exact Or.inl hxn
          · simp only [Norm, if_true]; exact Or.inl hxn
      | none =>
        simp only []
        have hopts : (fieldOpt m sm).sizeOf = lookupSize m.name sm ∧ (fieldOpt m sm).order = m.tag.order ∧
          (fieldOpt m sm).optional = m.tag.option ∧ (fieldOpt m sm).coptional = m.tag.coption := ⟨rfl, rfl, rfl, rfl⟩
        have hcore := decCore_fits hv t (fieldOpt m sm) (by rw [hopts.1, ← hszof]; exact hcan)
          (fun s h => lookup_nonneg hs h)
        have hz : t.isZero t.zero = true := isZero_zero t
        have hfield : Got e o (decField e t (fieldOpt m sm) t.zero (decCore e t (fieldOpt m sm) t.zero)) fun bs x =>
            ((m.tag.option = true ∨ (e = .borsh ∧ m.tag.coption = true) ∨
              occupies e t ((announced m (sm.map (·.1))).contains m.name) = true) → bs ≠ []) ∧
            (bs.length < 2 ^ 29 → ¬ absent e m t x → Encodable e t (lookupSize m.name sm) x ∧
              Returns e t ((announced m (sm.map (·.1))).contains m.name) x) ∧
            (bs.length < 2 ^ 29 → Norm e t x ∨ ((m.tag.option = true ∨ (e = .borsh ∧ m.tag.coption = true)) ∧ x = t.zero)) := by
          unfold decField
          refine Got.set (o := m.tag.order) hord' ?_
          rw [hopts.2.2.1, hopts.2.2.2]
          by_cases hop : m.tag.option = true
          · rw [if_pos hop, if_neg (by simp [(hopt' hop).1])]
            refine (readFlag_took hv).then fun b1 b hb => ?_
            have hb1 : b1 ≠ [] := by simpa using hb
            refine Got.ite (fun hbt => ?_) fun hbf => ?_
            · rw [if_neg (fun h => by rw [((hopt' hop).2 h.1).2] at h; cases h.2)]
              refine hcore.weaken fun bs x h => ⟨fun _ => ?_, fun hsm _ => ?_, fun hsm => ?_⟩
              · simp only [ne_eq, List.append_eq_nil_iff, not_and]
                exact fun h => absurd h hb1
              · rw [List.length_append] at hsm
                rw [hszof]; exact ⟨(h.2 (by omega)).1, (h.2 (by omega)).2.1⟩
              · rw [List.length_append] at hsm
                exact Or.inl (h.2 (by omega)).2.2
            · rw [absentVal_zero]
              refine Got.pure _ ⟨fun _ => ?_, fun _ hna => absurd ⟨hz, Or.inl hop⟩ hna, fun _ => Or.inr ⟨Or.inl hop, rfl⟩⟩
              rw [List.append_nil]; exact hb1
          · rw [if_neg hop]
            by_cases hco : e = .borsh ∧ m.tag.coption = true
            · rw [if_pos hco, if_neg (by rw [directLib_asLib (hcopt' hco.1 hco.2)]; simp)]
              refine readCOption_took.then fun b1 b hb => ?_
              have hb1 : b1 ≠ [] := by rw [hb]; exact fixed_ne_nil _ _ _ (by decide)
              refine Got.ite (fun hbt => ?_) fun hbf => ?_
              · refine hcore.weaken fun bs x h => ⟨fun _ => ?_, fun hsm _ => ?_, fun hsm => ?_⟩
                · simp only [ne_eq, List.append_eq_nil_iff, not_and]
                  exact fun h => absurd h hb1
                · rw [List.length_append] at hsm
                  rw [hszof]; exact ⟨(h.2 (by omega)).1, (h.2 (by omega)).2.1⟩
                · rw [List.length_append] at hsm
                  exact Or.inl (h.2 (by omega)).2.2
              · rw [absentVal_zero]
                refine Got.pure _ ⟨fun _ => ?_, fun _ hna => absurd ⟨hz, Or.inr hco⟩ hna, fun _ => Or.inr ⟨Or.inr hco, rfl⟩⟩
                rw [List.append_nil]; exact hb1
            · rw [if_neg hco]
              refine hcore.weaken fun bs x h => ⟨?_, fun hsm _ => ?_, fun hsm => Or.inl (h.2 hsm).2.2⟩
              · rintro (h' | h' | h')
                · exact absurd h' hop
                · exact absurd h' hco
                · refine h.1 ?_; rw [hopts.1, ← hszof]; exact h'
              · rw [hszof]; exact ⟨(h.2 hsm).1, (h.2 hsm).2.1⟩
        refine hfield.bind fun b1 x o1 hx1 => ?_
        refine recordSize_got.bind fun b2 sm' o2 hsm => ?_
        obtain ⟨rfl, ha⟩ := hsm
        refine (hnext b1 x sm' ha hx1.1 hx1.2.1 hx1.2.2 o2).weaken fun bs vs h => ?_
        simpa using h
    · rw [if_neg hexp] at hf
      have hexp' : m.exported = false := by simpa using hexp
      have hsz : m.tag.sizeOf = [] := by simpa using hf
      simp only [hexp', Bool.not_false]
      rw [if_pos (by simp)]
      have hnames : announced m (sm.map (·.1)) = sm.map (·.1) := by unfold announced; rw [if_pos hsz]
      rw [hnames] at hrest
      refine (decFields_fits hv fs sm hrest hs o).map fun bs vs h => ?_
      have ha : announce m t t.zero sm = some sm := by unfold announce; rw [if_pos hsz]
      simp only [EncodableFields, ReturnsFields, NormFields, occupiesFields, if_neg hk, ha, hnames, hexp', hx, hsz]
      refine ⟨fun ho => h.1 (by simpa using ho), fun hsm => ⟨⟨by simp, (h.2 hsm).1⟩, ⟨by simp, by simp, by simpa using (h.2 hsm).2.1⟩,
        by simp, (h.2 hsm).2.2⟩⟩
termination_by structural fs => fs
theorem decNth_fits {e : Encoding} (hv : e.valid = true) (hb : e = .borsh) : (fs : Fields) → (i : Nat) →
    restorablePayloads e fs = true → (o : Order) →
    Got e o (decNth e fs i fs.zeros) fun bs vs => bs.length < 2 ^ 29 → EncodableNth e fs i vs ∧ ReturnsNth e fs i vs ∧
      NormNth e fs i vs
  | .nil, i, _, o => by
    simp only [decNth, Fields.zeros]
    exact Got.panic
  | .cons m t fs, 0, hc, o => by
    simp only [restorablePayloads, Bool.and_eq_true] at hc
    simp only [decNth, Fields.zeros]
    have hcore := decCore_fits hv t {} hc.1.2 (by intro s h; cases h)
    have hval : Got e .le (decCore e t {} t.zero) fun bs x => payloadOk t x ∧ Storable e t none bs x := by
      intro d hd1 hd2 hd3 hd4 a d' hr
      obtain ⟨bs, tail, c, g1, g2, g3, g4⟩ := hcore d hd1 hd2 hd3 hd4 a d' hr
      refine ⟨bs, tail, c, g1, g2, g3, ?_, g4⟩
      cases t <;> simp only [payloadOk, payloadType] at hc ⊢ <;> try exact hc.1.1
      refine ⟨hc.1.1, ?_⟩
      simp only [decCore] at hr
      rw [M.bind_apply] at hr
      split at hr
      · simp only [M.pure_apply, Prod.mk.injEq, Res.ok.injEq] at hr
        exact ⟨_, hr.1.symm⟩
      · simp at hr
      · simp at hr
    refine Got.set (o := .le) (fun _ => rfl) (hval.map fun bs x h hsm => ?_)
    simp only [EncodableNth, ReturnsNth, NormNth]
    exact ⟨⟨h.1, (h.2.2 hsm).1⟩, (h.2.2 hsm).2.1, (h.2.2 hsm).2.2, trivial⟩
  | .cons m t fs, i + 1, hc, o => by
    simp only [restorablePayloads, Bool.and_eq_true] at hc
    simp only [decNth, Fields.zeros]
    refine (decNth_fits hv hb fs i hc.2 o).map fun bs vs h hsm => ?_
    simp only [EncodableNth, ReturnsNth, NormNth]
    exact ⟨(h hsm).1, (h hsm).2.1, trivial, (h hsm).2.2⟩
termination_by structural fs => fs
end

theorem decode_fits {e : Encoding} (hv : e.valid = true) (t : Ty) (hc : restorable e t false = true) (b : Bytes)
    (hb : b.length < 2 ^ 29) (v : Val) (h : unmarshal e t t.zero b = .ok v) :
    Encodable e t none v ∧ Returns e t false v ∧ Norm e t v := by
  unfold unmarshal at h
  cases hr : decode t t.zero (Dec.new b e) with
  | mk res d' =>
    rw [hr] at h
    simp only [] at h
    subst h
    unfold decode at hr
    rw [M.bind_apply, M.get_apply] at hr
    simp only [] at hr
    rw [if_neg (by rintro h; rw [show (Dec.new b e).enc = e from rfl] at h; rw [h] at hv; cases hv),
      show (Dec.new b e).enc = e from rfl] at hr
    simp only [setCurD, M.bind_apply, M.modify_apply] at hr
    obtain ⟨bs, tail, c, h1, -, -, h3⟩ := decCore_fits hv t {} hc (by intro s h; cases h)
      { Dec.new b e with cur := some .le } (Dec.new_ok b e) rfl rfl (fun _ => rfl) v d' hr
    refine h3.2 ?_
    have h1 : (Dec.new b e).rest = bs ++ tail := h1
    rw [Dec.new_rest] at h1
    have := congrArg List.length h1
    rw [List.length_append] at this
    omega

end Verif
