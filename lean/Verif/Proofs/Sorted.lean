import Verif.Spec.Sorted
import Verif.Proofs.Layout
/-! Encodings of sortable types have the same length and compare like the values. -/
set_option linter.unusedSimpArgs false
namespace Verif
open Spec

theorem bytesCmp_append : ∀ {a c : Bytes} (b d : Bytes), a.length = c.length → bytesCmp (a ++ b) (c ++ d) = (bytesCmp a c).then (bytesCmp b d)
  | [], [], _, _, _ => by simp [bytesCmp]
  | [], _ :: _, _, _, h => by simp at h
  | _ :: _, [], _, _, h => by simp at h
  | x :: a, y :: c, b, d, h => by
    simp only [List.cons_append, bytesCmp]
    rw [bytesCmp_append b d (by simpa using h)]
    cases compare x.toNat y.toNat <;> rfl

theorem fixed_be_succ (k n : Nat) : fixed .be (k + 1) n = UInt8.ofNat (n / 256 ^ k) :: fixed .be k n := by
  simp [fixed, List.range_succ]

theorem fixed_mod (o : Order) (k n : Nat) : fixed o k (n % 256 ^ k) = fixed o k n := by
  have : ∀ i ∈ List.range k, UInt8.ofNat (n % 256 ^ k / 256 ^ i) = UInt8.ofNat (n / 256 ^ i) := by
    intro i hi
    have hi := List.mem_range.1 hi
    rw [← UInt8.toNat_inj]
    simp only [UInt8.toNat_ofNat']
    obtain ⟨j, rfl⟩ : ∃ j, k = i + (j + 1) := ⟨k - i - 1, by omega⟩
    rw [Nat.pow_add, Nat.mod_mul_right_div_self, Nat.pow_succ, Nat.mul_comm (256 ^ j)]
    rw [show 2 ^ 8 = 256 from rfl, Nat.mod_mul_right_mod]
  cases o <;> simp only [fixed] <;> rw [List.map_congr_left this]

theorem compare_div {k n m : Nat} :
    compare n m = (compare (n / 256 ^ k) (m / 256 ^ k)).then (compare (n % 256 ^ k) (m % 256 ^ k)) := by
  have hn := Nat.div_add_mod n (256 ^ k)
  have hm := Nat.div_add_mod m (256 ^ k)
  have hp : 0 < 256 ^ k := Nat.pow_pos (by decide)
  have h1 := Nat.mod_lt n hp
  have h2 := Nat.mod_lt m hp
  generalize 256 ^ k = P at *
  generalize n / P = a at *
  generalize m / P = b at *
  generalize n % P = r at *
  generalize m % P = s at *
  subst hn hm
  rcases Nat.lt_trichotomy a b with h | rfl | h
  · have : P * a + r < P * b + s := by
      have := Nat.mul_le_mul_left P (show a + 1 ≤ b from h)
      rw [Nat.mul_add] at this; omega
    rw [Nat.compare_eq_lt.2 this, Nat.compare_eq_lt.2 h]; rfl
  · rw [Nat.compare_eq_eq.2 (rfl : a = a)]
    simp only [Ordering.then]
    rcases Nat.lt_trichotomy r s with h | rfl | h
    · rw [Nat.compare_eq_lt.2 h, Nat.compare_eq_lt.2 (by omega)]
    · simp
    · rw [Nat.compare_eq_gt.2 h, Nat.compare_eq_gt.2 (by omega)]
  · have : P * b + s < P * a + r := by
      have := Nat.mul_le_mul_left P (show b + 1 ≤ a from h)
      rw [Nat.mul_add] at this; omega
    rw [Nat.compare_eq_gt.2 this, Nat.compare_eq_gt.2 h]; rfl

theorem bytesCmp_fixed : ∀ {k n m : Nat}, n < 256 ^ k → m < 256 ^ k → bytesCmp (fixed .be k n) (fixed .be k m) = compare n m
  | 0, n, m, hn, hm => by
    have : n = 0 := by simpa using hn
    have : m = 0 := by simpa using hm
    subst n m; simp [fixed, bytesCmp]
  | k + 1, n, m, hn, hm => by
    rw [fixed_be_succ, fixed_be_succ, bytesCmp, ← fixed_mod .be k n, ← fixed_mod .be k m]
    have hp : 0 < 256 ^ k := Nat.pow_pos (by decide)
    rw [bytesCmp_fixed (Nat.mod_lt _ hp) (Nat.mod_lt _ hp), compare_div (k := k) (n := n) (m := m)]
    have h1 : n / 256 ^ k < 256 := by rw [Nat.div_lt_iff_lt_mul hp]; rw [Nat.pow_succ] at hn; omega
    have h2 : m / 256 ^ k < 256 := by rw [Nat.div_lt_iff_lt_mul hp]; rw [Nat.pow_succ] at hm; omega
    simp [Nat.mod_eq_of_lt h1, Nat.mod_eq_of_lt h2]

/-- same length, and compared like this -/
abbrev Compares (a b : Bytes) (o : Ordering) : Prop := a.length = b.length ∧ bytesCmp a b = o

theorem Compares.append {a b c d : Bytes} {o p : Ordering} (h1 : Compares a b o) (h2 : Compares c d p) :
    Compares (a ++ c) (b ++ d) (o.then p) :=
  ⟨by simp [h1.1, h2.1], by rw [bytesCmp_append _ _ h1.1, h1.2, h2.2]⟩

theorem compares_fixed {k n m : Nat} (hn : n < 256 ^ k) (hm : m < 256 ^ k) : Compares (fixed .be k n) (fixed .be k m) (compare n m) :=
  ⟨by simp, bytesCmp_fixed hn hm⟩

theorem compares_one {o : Order} {n m : Nat} (hn : n < 256) (hm : m < 256) : Compares (fixed o 1 n) (fixed o 1 m) (compare n m) := by
  rw [fixed_one', fixed_one', ← fixed_one' .be, ← fixed_one' .be]
  exact compares_fixed hn hm

theorem compares_bool (a b : Bool) : Compares [if a then 1 else 0] [if b then 1 else 0] (compare a.toNat b.toNat) := by
  cases a <;> cases b <;> decide

theorem compares_seq {f : Val → Bytes} {g : Val → Val → Ordering} : ∀ {xs ys : List Val}, xs.length = ys.length →
    (∀ x ∈ xs, ∀ y ∈ ys, Compares (f x) (f y) (g x y)) → Compares (xs.flatMap f) (ys.flatMap f) (cmpAll g xs ys)
  | [], [], _, _ => ⟨rfl, rfl⟩
  | [], _ :: _, h, _ => by simp at h
  | _ :: _, [], h, _ => by simp at h
  | x :: xs, y :: ys, h, hc => by
    simp only [List.flatMap_cons, cmpAll]
    exact (hc x (by simp) y (by simp)).append
      (compares_seq (by simpa using h) fun a ha b hb => hc a (by simp [ha]) b (by simp [hb]))

theorem sortable_elem {e : Encoding} {t : Ty} {o : Order} (h : Sortable e t o = true) : losesVarint t = false := by
  cases t <;> simp [losesVarint]
  case lib l => cases l <;> simp [Sortable] at h <;> simp

theorem elem_enc {e : Encoding} {t : Ty} {x : Val} (hs : Sortable e t .le = true)
    (h : match t.uintKind with | some w => UintElem w x | none => Encodable e t none x) : Encodable e t none x := by
  cases t
  case lib l =>
    cases l <;> simp [Sortable] at hs <;> simp only [Ty.uintKind, Ty.kind, Lib.kind] at h <;> exact h
  case uint w b =>
    simp only [Ty.uintKind, Ty.kind] at h
    cases x <;> simp [UintElem] at h
    simpa [Encodable] using h
  case borshEnum =>
    simp only [Ty.uintKind, Ty.kind] at h
    cases x <;> simp [UintElem, Width.bits, Width.bytes] at h
    simpa [Encodable] using h
  all_goals simp [Sortable] at hs
  all_goals simp only [Ty.uintKind, Ty.kind] at h
  all_goals exact h

theorem announced_none {m : FieldMeta} (h : m.tag.sizeOf = []) (names : List Bytes) : announced m names = names := by simp [announced, h]

variable {e : Encoding}

mutual
theorem sorted_wire : ∀ (t : Ty) (o : Order) (z z' : Option Int) (s : Bool) (v w : Val), Sortable e t o = true →
    Encodable e t z v → Encodable e t z' w → Compares (wire e t o s v) (wire e t o s w) (valCmp t v w)
  | .bool, o, z, z', s, v, w, h, hv, hw => by
    cases v <;> simp only [Encodable] at hv
    cases w <;> simp only [Encodable] at hw
    simp only [wire, valCmp]; exact compares_bool _ _
  | .borshEnum, o, z, z', s, v, w, h, hv, hw => by
    cases v <;> simp only [Encodable] at hv
    cases w <;> simp only [Encodable] at hw
    simp only [wire, valCmp]; exact compares_one hv hw
  | .uint k b, o, z, z', s, v, w, h, hv, hw => by
    cases v <;> simp only [Encodable] at hv
    cases w <;> simp only [Encodable] at hw
    simp only [wire, valCmp]
    simp only [Sortable, Bool.or_eq_true, Bool.and_eq_true, beq_iff_eq, bne_iff_ne] at h
    rcases h with rfl | ⟨rfl, he⟩
    · exact compares_one (by simpa [Width.bits, Width.bytes] using hv) (by simpa [Width.bits, Width.bytes] using hw)
    · rw [ord, if_neg he]
      refine compares_fixed ?_ ?_
      · rw [show (256 : Nat) = 2 ^ 8 from rfl, ← Nat.pow_mul]; exact hv
      · rw [show (256 : Nat) = 2 ^ 8 from rfl, ← Nat.pow_mul]; exact hw
  | .lib l, o, z, z', s, v, w, h, hv, hw => by
    cases l <;> simp [Sortable] at h <;> cases v <;> simp only [Encodable, LibEnc] at hv <;> cases w <;>
      simp only [Encodable, LibEnc] at hw <;> simp only [wire, libWire, valCmp]
    · exact compares_bool _ _
    · subst h; exact compares_fixed (by simpa using hv) (by simpa using hw)
    · subst h
      rename_i lo hi x lo' hi' x'
      have hsp : ∀ a b : Nat, b < 2 ^ 64 → (a * 2 ^ 64 + b) / 256 ^ 8 = a ∧ (a * 2 ^ 64 + b) % 256 ^ 8 = b := by
        intro a b hb
        rw [show (256 : Nat) ^ 8 = 2 ^ 64 from rfl]; omega
      have := compares_fixed (k := 16) (n := hi * 2 ^ 64 + lo) (m := hi' * 2 ^ 64 + lo')
        (by rw [show (256 : Nat) ^ 16 = 2 ^ 128 from rfl]; omega) (by rw [show (256 : Nat) ^ 16 = 2 ^ 128 from rfl]; omega)
      rw [compare_div (k := 8), (hsp hi lo hv.1).1, (hsp hi lo hv.1).2, (hsp hi' lo' hw.1).1, (hsp hi' lo' hw.1).2] at this
      exact this
  | .array n t, o, z, z', s, v, w, h, hv, hw => by
    simp only [Sortable] at h
    cases v <;> simp only [Encodable] at hv
    cases w <;> simp only [Encodable] at hw
    rw [array_wire (sortable_elem h), array_wire (sortable_elem h), valCmp]
    exact compares_seq (hv.1.trans hw.1.symm) fun x hx y hy =>
      sorted_wire t .le none none false x y h (elem_enc h (hv.2 x hx)) (elem_enc h (hw.2 y hy))
  | .struct fs, o, z, z', s, v, w, h, hv, hw => by
    simp only [Sortable, Bool.and_eq_true, Bool.not_eq_true', Bool.and_eq_false_iff] at h
    have hn : ¬ (e = .borsh ∧ fs.isEnum = true) := by
      rintro ⟨rfl, hf⟩; simp [hf] at h
    cases v <;> simp only [Encodable] at hv
    cases w <;> simp only [Encodable] at hw
    rw [if_neg hn] at hv hw
    simp only [wire, valCmp]
    rw [if_neg hn, if_neg hn]
    exact sorted_fields fs [] [] [] _ _ h.2 hv hw
  | .f32, _, _, _, _, _, _, h, _, _ | .f64, _, _, _, _, _, _, h, _, _ | .str, _, _, _, _, _, _, h, _, _
  | .int _ _, _, _, _, _, _, _, h, _, _ | .ptr _, _, _, _, _, _, _, h, _, _ | .slice _, _, _, _, _, _, _, h, _, _
  | .map _ _, _, _, _, _, _, _, h, _, _ | .iface, _, _, _, _, _, _, h, _, _ | .plainInt, _, _, _, _, _, _, h, _, _
  | .plainUint, _, _, _, _, _, _, h, _, _ | .other, _, _, _, _, _, _, h, _, _ => by simp [Sortable] at h
theorem sorted_fields : ∀ (fs : Fields) (names : List Bytes) (sm sm' : List (Bytes × Int)) (vs ws : List Val), SortableFields e fs = true →
    EncodableFields e fs sm vs → EncodableFields e fs sm' ws →
    Compares (wireFields e fs names vs) (wireFields e fs names ws) (fieldsCmp fs vs ws)
  | .nil, names, sm, sm', vs, ws, _, _, _ => by simp only [wireFields, fieldsCmp]; exact ⟨rfl, rfl⟩
  | .cons m t fs, names, sm, sm', [], ws, _, hv, _ => by simp [EncodableFields] at hv
  | .cons m t fs, names, sm, sm', v :: vs, [], _, _, hw => by simp [EncodableFields] at hw
  | .cons m t fs, names, sm, sm', v :: vs, w :: ws, h, hv, hw => by
    simp only [SortableFields, Bool.and_eq_true, Bool.not_eq_true', beq_iff_eq, Bool.and_eq_false_iff] at h
    obtain ⟨⟨⟨⟨⟨⟨hx, hk⟩, ho⟩, hc⟩, hz⟩, ht⟩, hf⟩ := h
    have habs : ∀ u, ¬ absent e m t u := by
      rintro u ⟨-, h | ⟨rfl, h⟩⟩
      · simp [ho] at h
      · simp [h] at hc
    simp only [EncodableFields, hk, announce, hz, if_true, Bool.false_eq_true, if_false] at hv hw
    have h1 := sorted_wire t m.tag.order _ _ (names.contains m.name) v w ht (hv.1 hx (habs v)) (hw.1 hx (habs w))
    have h2 := sorted_fields fs names sm sm' vs ws hf hv.2 hw.2
    have hfw : ∀ u b, fieldWire e m t u b = b := by
      intro u b
      rw [fieldWire, if_neg (by simp [ho]), if_neg (by simp [ho]), List.nil_append, if_neg (by
        rintro ⟨rfl, h⟩; simp [h] at hc)]
    simp only [wireFields, hk, Bool.false_eq_true, if_false, hx, if_true, announced_none hz, hfw, fieldsCmp]
    exact h1.append h2
end

end Verif
