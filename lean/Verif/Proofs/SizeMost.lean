import Verif.Proofs.SizeZero
/-! A value of the greatest size. -/
set_option linter.unusedSimpArgs false
namespace Verif
open Spec

namespace Spec
def libBig : Lib → Val
  | .bool => .bool true
  | .varint16 => .int (-2 ^ 15)
  | .varint32 => .int (-2 ^ 31)
  | .varuint16 => .uint 65535
  | .varuint32 => .uint 4294967295
  | .jsonFloat64 => .float 1
  | .int64 => .int 1
  | .uint64 => .uint 1
  | .uint128 | .int128 | .float128 => .u128 1 0 none
  | .emptyVariant => .struct []
  | .safeString | .hexBytes => .str []

mutual
/-- A value with long varints, nothing nil and nothing zero. -/
def big : Ty → Val
  | .bool => .bool true
  | .uint _ _ | .borshEnum => .uint 1
  | .int _ _ => .int 1
  | .f32 | .f64 => .float 1
  | .lib l => libBig l
  | .ptr t => .ptr (some (big t))
  | .array n t => .arr (List.replicate n (big t))
  | .struct fs => .struct (bigs fs)
  | _ => .nil
def bigs : Fields → List Val
  | .nil => []
  | .cons _ t fs => big t :: bigs fs
end

mutual
/-- Bounded types without Borsh enums and sizeof tags, in which every field under a presence flag can be other than zero. -/
def Full (e : Encoding) : Ty → Bool
  | .str | .slice _ | .map _ _ | .plainInt | .plainUint | .other => false
  | .lib l => (libMost false l).isSome
  | .ptr t | .array _ t => Full e t
  | .struct fs => !(e == .borsh && fs.isEnum) && FullFields e fs
  | _ => true
def FullFields (e : Encoding) : Fields → Bool
  | .nil => true
  | .cons m t fs =>
    (m.tag.skip || (m.tag.sizeOf == [] && (!m.exported || (Full e t && (!(m.tag.option || m.tag.coption) || !t.isZero (big t)))))) && FullFields e fs
end
end Spec

variable {e : Encoding}

theorem varint_least : ∀ (k n : Nat), 128 ^ k ≤ n → k + 1 ≤ (varint n).length
  | 0, n, _ => varint_pos n
  | k + 1, n, h => by
    have hp : 1 ≤ 128 ^ k := Nat.one_le_pow _ _ (by decide)
    rw [Nat.pow_succ] at h
    rw [varint, if_neg (by omega)]
    have := varint_least k (n / 128) (by rw [Nat.le_div_iff_mul_le (by decide)]; exact h)
    simp only [List.length_cons]; omega

theorem lib_big {l : Lib} (h : (libMost false l).isSome = true) (o : Order) :
    LibEnc e l (libBig l) ∧ (libWire e l o (libBig l)).length = (libMost false l).getD 0 := by
  have v : ∀ k n, 128 ^ k ≤ n → n < 128 ^ (k + 1) → (varint n).length = k + 1 := fun k n h1 h2 =>
    Nat.le_antisymm (varint_most k n h2) (varint_least k n h1)
  cases l <;> simp [libMost] at h <;> simp [libBig, LibEnc, libWire, libMost, zig, isNaN64]
  · exact v 2 _ (by decide) (by decide)
  · exact v 2 _ (by decide) (by decide)
  · exact v 4 _ (by decide) (by decide)
  · exact v 4 _ (by decide) (by decide)

theorem big_uint {t : Ty} {w : Width} (hk : t.uintKind = some w) (hf : Full e t = true) : UintElem w (big t) := by
  cases t with
  | lib l =>
    cases l <;> simp [Ty.uintKind, Ty.kind, Lib.kind] at hk <;> subst hk <;> simp [big, libBig, UintElem, Width.bits, Width.bytes]
  | uint w' n =>
    simp [Ty.uintKind, Ty.kind] at hk; subst hk
    cases w' <;> simp [big, UintElem, Width.bits, Width.bytes]
  | borshEnum => simp [Ty.uintKind, Ty.kind] at hk; subst hk; simp [big, UintElem, Width.bits, Width.bytes]
  | _ => simp [Ty.uintKind, Ty.kind, Full] at hk hf

mutual
theorem big_size : ∀ (t : Ty) (o : Order) (z : Option Int) (s : Bool), Full e t = true →
    Encodable e t z (big t) ∧ (wire e t o s (big t)).length = most false e t
  | .bool, o, z, s, hf | .borshEnum, o, z, s, hf => by simp [big, Encodable, wire, most]
  | .f32, o, z, s, hf => by simp [big, Encodable, wire, most, signalling32, isNaN32]
  | .f64, o, z, s, hf => by simp [big, Encodable, wire, most, isNaN64]
  | .uint w _, o, z, s, hf => by cases w <;> simp [big, Encodable, wire, most, Width.bits, Width.bytes]
  | .int w _, o, z, s, hf => by cases w <;> simp [big, Encodable, wire, most, Width.bits, Width.bytes]
  | .lib l, o, z, s, hf => by
    simp only [Full] at hf
    simp only [big, Encodable, wire, most]
    exact lib_big hf o
  | .ptr t, o, z, s, hf => by
    simp only [Full] at hf
    simp only [big, Encodable, wire, most, Option.getD_some]
    refine ⟨(big_size t o _ s hf).1, ?_⟩
    split
    · exact (big_size t .le none false hf).2
    · exact (big_size t o none s hf).2
  | .array n t, o, z, s, hf => by
    simp only [Full] at hf
    simp only [big, Encodable, wire, most, List.length_replicate, List.mem_replicate, true_and]
    refine ⟨?_, seq_same n fun _ => ?_⟩
    · rintro x ⟨-, rfl⟩
      split
      · rename_i h; exact big_uint h hf
      · exact (big_size t .le none false hf).1
    · cases h : t.uintKind with
      | some w => exact uint_size (big_uint h hf)
      | none => exact (big_size t .le none false hf).2
  | .struct fs, o, z, s, hf => by
    simp only [Full, Bool.and_eq_true, Bool.not_eq_true'] at hf
    have h : ¬ (e = .borsh ∧ fs.isEnum = true) := by
      have := hf.1; intro h; simp [h.1, h.2] at this
    simp only [big, Encodable, wire, most, if_neg h]
    exact big_fields fs [] [] hf.2
  | .iface, o, z, s, hf => by simp [big, Encodable, wire, most]
  | .str, _, _, _, hf | .slice _, _, _, _, hf | .map _ _, _, _, _, hf | .plainInt, _, _, _, hf | .plainUint, _, _, _, hf | .other, _, _, _, hf => by
    simp [Full] at hf
theorem big_fields : ∀ (fs : Fields) (names : List Bytes) (sm : List (Bytes × Int)), FullFields e fs = true →
    EncodableFields e fs sm (bigs fs) ∧ (wireFields e fs names (bigs fs)).length = mostFields false e fs
  | .nil, _, _, _ => by simp [bigs, EncodableFields, mostFields, wireFields]
  | .cons m t fs, names, sm, hf => by
    simp only [FullFields, Bool.and_eq_true] at hf
    simp only [bigs, EncodableFields, wireFields, mostFields]
    by_cases hk : m.tag.skip = true
    · simp only [hk, if_true, Bool.true_or, Nat.zero_add]
      exact big_fields fs names sm hf.2
    · simp only [Bool.not_eq_true] at hk
      simp only [hk, Bool.false_eq_true, if_false, Bool.false_or]
      rw [hk, Bool.false_or, Bool.and_eq_true] at hf
      have h0 : m.tag.sizeOf = [] := by simpa using hf.1.1
      have ha : announce m t (big t) sm = some sm := by rw [announce, if_pos h0]
      rw [ha]
      have h2 := big_fields fs (announced m names) sm hf.2
      by_cases hx : m.exported = true
      · have hf1 := hf.1.2
        rw [hx, Bool.not_true, Bool.false_or, Bool.and_eq_true] at hf1
        have h1 := big_size t m.tag.order (lookupSize m.name sm) ((announced m names).contains m.name) hf1.1
        simp only [hx, if_true, Bool.not_true, Bool.false_eq_true, if_false, List.length_append, h2.2]
        refine ⟨⟨fun _ _ => h1.1, h2.1⟩, ?_⟩
        congr 1
        rw [← h1.2]
        have hz := hf1.2
        cases ho : m.tag.option <;> cases hc : m.tag.coption <;> rw [ho, hc] at hz <;> by_cases he : e = .borsh <;>
          simp at hz <;> simp [fieldWire, ho, hc, he, hz, flag_length, cflag_length, Nat.add_assoc]
      · simp only [Bool.not_eq_true] at hx
        simp only [hx, Bool.false_eq_true, if_false, Bool.not_false, if_true, Nat.zero_add, false_imp_iff, true_and]
        exact h2
end

end Verif
