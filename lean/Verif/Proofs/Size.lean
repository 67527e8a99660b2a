import Verif.Spec.Size
import Verif.Proofs.Layout
/-! The length of an encoding lies between `least` and `most`. -/
set_option linter.unusedSimpArgs false
namespace Verif
open Spec

variable {e : Encoding}

theorem varint_pos (n : Nat) : 1 ≤ (varint n).length := by
  rw [varint]; split <;> simp

theorem varint_most : ∀ (k n : Nat), n < 128 ^ (k + 1) → (varint n).length ≤ k + 1
  | 0, n, h => by rw [varint, if_pos (by simpa using h)]; simp
  | k + 1, n, h => by
    rw [varint]; split
    · simp
    · have := varint_most k (n / 128) (by
        rw [Nat.div_lt_iff_lt_mul (by decide)]; rw [Nat.pow_succ] at h; exact h)
      simp only [List.length_cons]; omega

theorem zig_lt {z : Int} {b : Nat} (h1 : -(b : Int) ≤ z) (h2 : z < b) : zig z < 2 * b := by
  rw [zig]; split <;> omega

theorem compact_pos (n : Nat) : 1 ≤ (compact n).length := by
  rw [compact]; repeat' split
  all_goals simp

theorem prefix_least (e : Encoding) (n : Nat) : prefixLeast e ≤ (lenPrefix e n).length := by
  cases e <;> simp [prefixLeast, lenPrefix, varint_pos, compact_pos]

theorem flag_length (e : Encoding) (b : Bool) : (flag e b).length = flagBytes e := by simp [flag, flagBytes]

theorem cflag_length (b : Bool) : (cflag b).length = 4 := by simp [cflag]

theorem lib_size {l : Lib} {o : Order} {v : Val} (h : LibEnc e l v) : libLeast e l ≤ (libWire e l o v).length ∧
    ((libMost false l).isSome → (libWire e l o v).length ≤ (libMost false l).getD 0) := by
  cases l <;> cases v <;> simp only [LibEnc] at h <;>
    simp only [libWire, libLeast, libMost, Option.isSome, Option.getD, if_false, List.length_append, fixed_length, List.length_singleton, List.length_nil,
      false_imp_iff, true_imp_iff, Bool.false_eq_true, and_true, and_self, Nat.le_refl, imp_self]
  · exact Nat.le_trans (prefix_least e _) (Nat.le_add_right _ _)
  · exact Nat.le_trans (prefix_least e _) (Nat.le_add_right _ _)
  · exact ⟨varint_pos _, varint_most 2 _ (by have := zig_lt (b := 2 ^ 15) h.1 h.2; omega)⟩
  · exact ⟨varint_pos _, varint_most 2 _ (by omega)⟩
  · exact ⟨varint_pos _, varint_most 4 _ (by omega)⟩
  · exact ⟨varint_pos _, varint_most 4 _ (by have := zig_lt (b := 2 ^ 31) h.1 h.2; omega)⟩

theorem uint_size {w : Width} {x : Val} (h : UintElem w x) : (uintWire w x).length = w.bytes := by
  cases x <;> simp only [UintElem] at h
  simp [uintWire]

theorem seq_least {f : Val → Bytes} {k : Nat} : ∀ {xs : List Val}, (∀ x ∈ xs, k ≤ (f x).length) → xs.length * k ≤ (xs.flatMap f).length
  | [], _ => by simp
  | x :: xs, h => by
    have h1 := h x (by simp)
    have h2 := seq_least (xs := xs) fun y hy => h y (by simp [hy])
    simp only [List.flatMap_cons, List.length_append, List.length_cons, Nat.add_mul, Nat.one_mul]; omega

theorem seq_most {f : Val → Bytes} {k : Nat} : ∀ {xs : List Val}, (∀ x ∈ xs, (f x).length ≤ k) → (xs.flatMap f).length ≤ xs.length * k
  | [], _ => by simp
  | x :: xs, h => by
    have h1 := h x (by simp)
    have h2 := seq_most (xs := xs) fun y hy => h y (by simp [hy])
    simp only [List.flatMap_cons, List.length_append, List.length_cons, Nat.add_mul, Nat.one_mul]; omega

/-- between the two numbers, the second only if there is a bound -/
abbrev Between (lo : Nat) (b : Bool) (hi : Nat) (x : Bytes) : Prop := lo ≤ x.length ∧ (b = true → x.length ≤ hi)

theorem field_size {m : FieldMeta} {t : Ty} {v : Val} {body : Bytes} {lo hi : Nat} {b : Bool} (h : ¬ absent e m t v → Between lo b hi body) :
    Between (if m.tag.option then flagBytes e else if e = .borsh ∧ m.tag.coption then 4 else lo) b
      ((if m.tag.option then flagBytes e else 0) + (if e = .borsh ∧ m.tag.coption then 4 else 0) + hi) (fieldWire e m t v body) := by
  by_cases hz : t.isZero v = true <;> by_cases ho : m.tag.option = true <;> by_cases hc : (e = .borsh ∧ m.tag.coption = true) <;>
    simp only [Between, fieldWire, hz, ho, hc, and_self, and_true, and_false, if_true, if_false, Bool.false_eq_true, List.length_append, flag_length,
      cflag_length, List.nil_append] <;>
    first
    | (constructor
       · omega
       · intro _; omega)
    | (have := h (by simp [absent, hz, ho, hc])
       constructor
       · omega
       · intro hb; have := this.2 hb; omega)

mutual
theorem size_wire : ∀ (t : Ty) (o : Order) (z : Option Int) (s : Bool) (v : Val), Encodable e t z v →
    Between (least false e t s) (Bounded e t) (most false e t) (wire e t o s v)
  | .bool, o, z, s, v, hv | .borshEnum, o, z, s, v, hv | .uint _ _, o, z, s, v, hv | .int _ _, o, z, s, v, hv
  | .f32, o, z, s, v, hv | .f64, o, z, s, v, hv => by
    cases v <;> simp only [Encodable] at hv
    simp [Between, wire, least, most]
  | .str, o, z, s, v, hv => by
    cases v <;> simp only [Encodable] at hv
    simp only [wire, least, Bounded, Between, Bool.false_eq_true, false_imp_iff, and_true, strPrefix, List.length_append]
    split
    · simp
    · exact Nat.le_trans (prefix_least e _) (Nat.le_add_right _ _)
  | .lib l, o, z, s, v, hv => by
    simp only [Encodable] at hv
    simp only [wire, least, Bounded, most]
    exact lib_size hv
  | .ptr t, o, z, s, v, hv => by
    cases v <;> simp only [Encodable] at hv
    rename_i p
    simp only [wire, least, Bounded, most, Bool.false_eq_true, if_false]
    by_cases he : e = .borsh
    · by_cases ht : t.asLib = none
      · simp only [if_pos (And.intro he ht), if_pos he, if_pos ht]
        cases p with
        | none =>
          simp only [ht] at hv
          exact size_wire t .le none false t.zero (hv he)
        | some x => exact size_wire t .le _ false x hv
      · simp only [if_neg (fun h : e = .borsh ∧ t.asLib = none => ht h.2), if_pos he, if_neg ht]
        cases p with
        | none => simp [Between]
        | some x => exact ⟨Nat.zero_le _, (size_wire t o _ s x hv).2⟩
    · simp only [if_neg (fun h : e = .borsh ∧ t.asLib = none => he h.1), if_neg he]
      cases p with
      | none =>
        cases ht : t.asLib with
        | none => simp [Between]
        | some l =>
          cases t <;> simp [Ty.asLib] at ht
          subst ht
          simp only [Ty.asLib, he, false_or] at hv
          subst hv
          simp [Between, least, libLeast]
      | some x =>
        refine ⟨?_, (size_wire t o _ s x hv).2⟩
        by_cases ht : t.asLib = none
        · simp [ht]
        · simp only [if_neg ht]
          have hs := (size_wire t o _ s x hv).1
          cases t <;> simp [Ty.asLib] at ht
          simpa only [least] using hs
  | .slice t, o, z, s, v, hv => by
    cases v <;> simp only [Encodable] at hv
    simp only [wire, least, Bounded, Between, Bool.false_eq_true, false_imp_iff, and_true]
    cases s
    · simp only [Bool.false_eq_true, if_false, List.length_append]
      exact Nat.le_trans (prefix_least e _) (Nat.le_add_right _ _)
    · simp
  | .array n t, o, z, s, v, hv => by
    cases v <;> simp only [Encodable] at hv
    rename_i xs
    obtain ⟨rfl, hx⟩ := hv
    simp only [wire, least, Bounded, most]
    refine ⟨seq_least fun x hm => ?_, fun hb => seq_most fun x hm => ?_⟩
    · have := hx x hm
      split at this
      · rename_i h; simp only [h]; rw [uint_size this]; exact Nat.le_refl _
      · rename_i h; simp only [h]; exact (size_wire t .le none false x this).1
    · have := hx x hm
      split at this
      · rename_i h; simp only [h]; rw [uint_size this]; exact Nat.le_refl _
      · rename_i h; simp only [h]; exact (size_wire t .le none false x this).2 hb
  | .map k t, o, z, s, v, hv => by
    cases v <;> simp only [Encodable] at hv
    simp only [wire, least, Bounded, Between, Bool.false_eq_true, false_imp_iff, and_true, List.length_append]
    exact Nat.le_trans (prefix_least e _) (Nat.le_add_right _ _)
  | .struct fs, o, z, s, v, hv => by
    cases v <;> simp only [Encodable] at hv
    rename_i vs
    simp only [wire, least, Bounded, most]
    by_cases h : e = .borsh ∧ fs.isEnum = true
    · rw [if_pos h] at hv
      rw [if_pos h, if_pos h, if_pos h]
      have hb : (e == .borsh && fs.isEnum) = true := by simp [h.1, h.2]
      rw [hb]
      split at hv
      · rename_i n vs
        cases fs with
        | nil => simp [EncodableNth] at hv
        | cons m t fs =>
          simp only [EncodableNth] at hv
          simp only [wireNth, leastVariant, mostVariant, BoundedFields, Between, List.length_append, fixed_length, Bool.not_true, Bool.false_and,
            Bool.false_or, Bool.and_eq_true]
          have := size_nth fs n vs hv.2
          exact ⟨by omega, fun hb => by have := this.2 hb.2; omega⟩
      · exact hv.elim
    · rw [if_neg h] at hv
      rw [if_neg h, if_neg h, if_neg h]
      have hb : (e == .borsh && fs.isEnum) = false := by
        rw [Bool.eq_false_iff]; simpa using h
      rw [hb]
      exact size_fields fs [] [] vs hv
  | .iface, o, z, s, v, hv => by
    cases v <;> simp only [Encodable] at hv
    simp [Between, wire, least, most]
  | .plainInt, _, _, _, v, hv | .plainUint, _, _, _, v, hv | .other, _, _, _, v, hv => by
    cases v <;> simp [Encodable] at hv
theorem size_fields : ∀ (fs : Fields) (names : List Bytes) (sm : List (Bytes × Int)) (vs : List Val), EncodableFields e fs sm vs →
    Between (leastFields false e fs names) (BoundedFields e false fs) (mostFields false e fs) (wireFields e fs names vs)
  | .nil, _, _, _, _ => by simp [Between, leastFields, mostFields, wireFields]
  | .cons _ _ _, _, _, [], hv => by simp [EncodableFields] at hv
  | .cons m t fs, names, sm, v :: vs, hv => by
    simp only [EncodableFields] at hv
    simp only [wireFields, leastFields, mostFields, BoundedFields, Bool.not_false, Bool.true_and, Bool.false_and, Bool.and_true, Bool.false_eq_true, if_false]
    by_cases hk : m.tag.skip = true
    · rw [if_pos hk] at hv
      simp only [hk, if_true, Bool.true_or, Bool.true_and, Nat.zero_add]
      exact size_fields fs names sm vs hv
    · rw [if_neg hk] at hv
      simp only [Bool.not_eq_true] at hk
      simp only [hk, Bool.false_eq_true, if_false, Bool.false_or]
      cases ha : announce m t v sm with
      | none => rw [ha] at hv; exact hv.elim
      | some sm' =>
        rw [ha] at hv
        have h2 := size_fields fs (announced m names) sm' vs hv.2
        by_cases hx : m.exported = true
        · simp only [hx, if_true, Bool.not_true, Bool.false_eq_true, if_false, Bool.false_or]
          have h1 := field_size (e := e) (m := m) (t := t) (v := v) fun hn =>
            size_wire t m.tag.order _ ((announced m names).contains m.name) v (hv.1 hx hn)
          refine ⟨?_, fun hb => ?_⟩
          · have := h1.1; have := h2.1; rw [List.length_append]; omega
          · rw [Bool.and_eq_true] at hb
            have := h1.2 hb.1; have := h2.2 hb.2; rw [List.length_append]; omega
        · simp only [Bool.not_eq_true] at hx
          simp only [hx, Bool.false_eq_true, if_false, Bool.not_false, if_true, Bool.true_or, Bool.true_and, Nat.zero_add]
          exact h2
theorem size_nth : ∀ (fs : Fields) (i : Nat) (vs : List Val), EncodableNth e fs i vs →
    Between (leastOf false e fs) (BoundedFields e true fs) (mostOf false e fs) (wireNth e fs i vs)
  | .nil, _, _, hv => by simp [EncodableNth] at hv
  | .cons _ _ _, 0, [], hv => by simp [EncodableNth] at hv
  | .cons _ _ _, _ + 1, [], hv => by simp [EncodableNth] at hv
  | .cons m t fs, 0, v :: vs, hv => by
    simp only [EncodableNth] at hv
    have := size_wire t .le none false v hv.2
    simp only [wireNth, mostOf, BoundedFields, Between, Bool.not_true, Bool.false_and, Bool.false_or, Bool.and_eq_true]
    refine ⟨?_, fun hb => by have := this.2 hb.1; omega⟩
    cases fs <;> simp only [leastOf] <;> omega
  | .cons m t fs, i + 1, v :: vs, hv => by
    simp only [EncodableNth] at hv
    have := size_nth fs i vs hv
    simp only [wireNth, mostOf, BoundedFields, Between, Bool.not_true, Bool.false_and, Bool.false_or, Bool.and_eq_true]
    refine ⟨?_, fun hb => by have := this.2 hb.2; omega⟩
    cases fs with
    | nil => simp [EncodableNth] at hv
    | cons _ _ _ => simp only [leastOf] at this ⊢; omega
end

end Verif
