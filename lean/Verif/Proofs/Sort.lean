import Verif.Spec.Wire
/-! The insertion sort of the model agrees with the specification's ascending order on the keys of a Go map. -/
set_option linter.unusedSimpArgs false
namespace Verif
open Spec

/-- The key types on which `vComp` does not panic. -/
theorem sortable_eq (k : Ty) : k.sortable = orderedKey k := by
  cases k with
  | lib l => cases l <;> rfl
  | uint w b => cases w <;> cases b <;> rfl
  | int w b => cases w <;> cases b <;> rfl
  | _ => rfl

/-- A key that `vComp` compares by value. -/
def KeyShape (k : Kind) (v : Val) : Prop :=
  match k with
  | .f32 => ∃ n, v = .float n ∧ n < 2 ^ 32 ∧ isNaN32 n = false
  | .f64 => ∃ n, v = .float n ∧ n < 2 ^ 64 ∧ isNaN64 n = false
  | .int _ | .plainInt => ∃ z, v = .int z
  | .uint _ | .plainUint => ∃ n, v = .uint n
  | .string => ∃ s, v = .str s
  | _ => False

theorem floatKey_eq (w n : Nat) (hw : 0 < w) (h : n < 2 ^ w) : floatKey w n = floatOrd w n := by
  obtain ⟨w, rfl⟩ : ∃ x, w = x + 1 := ⟨w - 1, by omega⟩
  simp only [floatKey, floatOrd, Nat.add_sub_cancel]
  have hp : 0 < 2 ^ w := Nat.two_pow_pos w
  rw [Nat.pow_succ] at h
  by_cases hlt : n < 2 ^ w
  · rw [if_pos hlt, if_pos (Nat.div_eq_of_lt hlt)]
  · rw [if_neg hlt, if_neg (by rw [Nat.div_eq_zero_iff]; omega)]
    rw [Nat.mod_eq_sub_mod (by omega), Nat.mod_eq_of_lt (by omega)]

theorem bytesLt_iff (a b : Bytes) : bytesLt a b = decide (a < b) := by
  induction a generalizing b with
  | nil => cases b <;> simp [bytesLt]
  | cons x xs ih =>
    cases b with
    | nil => simp [bytesLt]
    | cons y ys =>
      simp only [bytesLt, ih, List.cons_lt_cons_iff]
      by_cases h1 : x < y <;> by_cases h2 : x = y <;> simp [h1, h2]

theorem rankLe_total (a b : Int × Bytes) : (rankLe a b || rankLe b a) = true := by
  simp only [rankLe, Bool.or_eq_true, Bool.and_eq_true, decide_eq_true_eq]
  have := List.le_total a.2 b.2
  by_cases h1 : a.1 < b.1
  · simp [h1]
  by_cases h2 : b.1 < a.1
  · simp [h2]
  have h3 : a.1 = b.1 := by omega
  rcases this with h | h <;> simp [h3, h]

theorem rankLe_trans (a b c : Int × Bytes) (h1 : rankLe a b = true) (h2 : rankLe b c = true) : rankLe a c = true := by
  simp only [rankLe, Bool.or_eq_true, Bool.and_eq_true, decide_eq_true_eq] at *
  rcases h1 with h1 | ⟨h1, h1'⟩ <;> rcases h2 with h2 | ⟨h2, h2'⟩
  · left; omega
  · left; omega
  · left; omega
  · right; exact ⟨by omega, List.le_trans h1' h2'⟩

theorem rankLe_antisymm {a b : Int × Bytes} (h1 : rankLe a b = true) (h2 : rankLe b a = true) : a = b := by
  simp only [rankLe, Bool.or_eq_true, Bool.and_eq_true, decide_eq_true_eq] at *
  rcases h1 with h1 | ⟨h1, h1'⟩ <;> rcases h2 with h2 | ⟨h2, h2'⟩
  · omega
  · omega
  · omega
  · exact Prod.ext h1 (List.le_antisymm h1' h2')

theorem keyLt_eq {k : Kind} {a b : Val} (ha : KeyShape k a) (hb : KeyShape k b) :
    keyLt k a b = !rankLe (keyRank k b) (keyRank k a) := by
  have num : ∀ x y : Int, decide (x < y) = !rankLe (y, []) (x, []) := by
    intro x y
    by_cases h : x < y
    · have h1 : ¬ y < x := by omega
      have h2 : ¬ y = x := by omega
      simp [rankLe, h, h1, h2]
    · by_cases h3 : y = x
      · simp [rankLe, h3]
      · have h4 : y < x := by omega
        simp [rankLe, h, h4]
  cases k <;> simp only [KeyShape] at ha hb <;> try exact absurd ha id
  case f32 =>
    obtain ⟨x, rfl, hx, nx⟩ := ha
    obtain ⟨y, rfl, hy, ny⟩ := hb
    simp [keyLt, keyRank, nx, ny, floatKey_eq 32 x (by omega) hx, floatKey_eq 32 y (by omega) hy, num]
  case f64 =>
    obtain ⟨x, rfl, hx, nx⟩ := ha
    obtain ⟨y, rfl, hy, ny⟩ := hb
    simp [keyLt, keyRank, nx, ny, floatKey_eq 64 x (by omega) hx, floatKey_eq 64 y (by omega) hy, num]
  case string =>
    obtain ⟨x, rfl⟩ := ha
    obtain ⟨y, rfl⟩ := hb
    simp only [keyLt, keyRank, bytesLt_iff, rankLe]
    by_cases h : x < y
    · have : ¬ y ≤ x := List.not_le.mpr h
      simp [h, this]
    · have : y ≤ x := List.not_lt.mp h
      simp [h, this]
  all_goals
    obtain ⟨x, rfl⟩ := ha
    obtain ⟨y, rfl⟩ := hb
    simp [keyLt, keyRank, ← num]

/-- Keys of equal rank are equal keys. -/
theorem keyEq_of_rank {k : Ty} (hs : orderedKey k = true) {a b : Val} (ha : KeyShape k.kind a) (hb : KeyShape k.kind b)
    (h : keyRank k.kind a = keyRank k.kind b) : k.keyEq a b = true := by
  cases k with
  | f32 =>
    obtain ⟨x, rfl, hx, nx⟩ := ha
    obtain ⟨y, rfl, hy, ny⟩ := hb
    simp only [keyRank, Ty.kind, if_true, Prod.mk.injEq, and_true] at h
    simp [Ty.keyEq, Lib.keyEq, Val.plainEq, floatEq, nx, ny, floatKey_eq 32 x (by omega) hx, floatKey_eq 32 y (by omega) hy, h]
  | f64 =>
    obtain ⟨x, rfl, hx, nx⟩ := ha
    obtain ⟨y, rfl, hy, ny⟩ := hb
    simp [keyRank, Ty.kind] at h
    simp [Ty.keyEq, Lib.keyEq, Val.plainEq, floatEq, nx, ny, floatKey_eq 64 x (by omega) hx, floatKey_eq 64 y (by omega) hy, h]
  | lib l =>
    cases l <;> simp only [Ty.kind, Lib.kind, KeyShape] at ha hb <;> try exact absurd ha id
    case jsonFloat64 =>
      obtain ⟨x, rfl, hx, nx⟩ := ha
      obtain ⟨y, rfl, hy, ny⟩ := hb
      simp [keyRank, Ty.kind, Lib.kind] at h
      simp [Ty.keyEq, Lib.keyEq, Val.plainEq, floatEq, nx, ny, floatKey_eq 64 x (by omega) hx, floatKey_eq 64 y (by omega) hy, h]
    case safeString =>
      obtain ⟨x, rfl⟩ := ha
      obtain ⟨y, rfl⟩ := hb
      simp [keyRank, Ty.kind, Lib.kind] at h
      simp [Ty.keyEq, Lib.keyEq, Val.plainEq, h]
    all_goals
      obtain ⟨x, rfl⟩ := ha
      obtain ⟨y, rfl⟩ := hb
      simp [keyRank, Ty.kind, Lib.kind] at h
      simp only [Ty.keyEq, Lib.keyEq, Val.plainEq, beq_iff_eq]; omega
  | str =>
    simp only [Ty.kind, KeyShape] at ha hb
    obtain ⟨x, rfl⟩ := ha
    obtain ⟨y, rfl⟩ := hb
    simp [keyRank, Ty.kind] at h
    simp [Ty.keyEq, Lib.keyEq, Val.plainEq, h]
  | uint w n | int w n | borshEnum | plainInt | plainUint =>
    simp only [Ty.kind, KeyShape] at ha hb
    obtain ⟨x, rfl⟩ := ha
    obtain ⟨y, rfl⟩ := hb
    simp [keyRank, Ty.kind] at h
    simp only [Ty.keyEq, Lib.keyEq, Val.plainEq, beq_iff_eq]; omega
  | _ => simp [Ty.kind, KeyShape] at ha

theorem insertSorted_perm (k : Kind) (x : Val × Val) (m : List (Val × Val)) : (insertSorted k x m).Perm (x :: m) := by
  induction m with
  | nil => exact .refl _
  | cons y ys ih =>
    simp only [insertSorted]
    split
    · exact (List.Perm.cons y ih).trans (List.Perm.swap x y ys)
    · exact .refl _

theorem sortEntries_perm (k : Kind) (m : List (Val × Val)) : (sortEntries k m).Perm m := by
  induction m with
  | nil => exact .refl _
  | cons x xs ih => exact (insertSorted_perm k x _).trans (List.Perm.cons x ih)

theorem insertSorted_sorted (k : Kind) (x : Val × Val) (m : List (Val × Val)) (hx : KeyShape k x.1)
    (hm : ∀ y ∈ m, KeyShape k y.1)
    (h : m.Pairwise fun a b => rankLe (keyRank k a.1) (keyRank k b.1) = true) :
    (insertSorted k x m).Pairwise fun a b => rankLe (keyRank k a.1) (keyRank k b.1) = true := by
  induction m with
  | nil => simp [insertSorted]
  | cons y ys ih =>
    have hy := hm y (by simp)
    have hys : ∀ z ∈ ys, KeyShape k z.1 := fun z hz => hm z (by simp [hz])
    rw [List.pairwise_cons] at h
    simp only [insertSorted]
    by_cases hlt : keyLt k y.1 x.1 = true
    · rw [if_pos hlt, List.pairwise_cons]
      refine ⟨?_, ih hys h.2⟩
      intro z hz
      have hz' := (insertSorted_perm k x ys).mem_iff.mp hz
      rw [keyLt_eq hy hx] at hlt
      rcases List.mem_cons.mp hz' with rfl | hz''
      · have := rankLe_total (keyRank k z.1) (keyRank k y.1)
        simp at hlt; simpa [hlt] using this
      · exact h.1 z hz''
    · rw [if_neg hlt, List.pairwise_cons]
      rw [keyLt_eq hy hx] at hlt
      have hxy : rankLe (keyRank k x.1) (keyRank k y.1) = true := by simpa using hlt
      refine ⟨?_, List.pairwise_cons.mpr h⟩
      intro z hz
      rcases List.mem_cons.mp hz with rfl | hz'
      · exact hxy
      · exact rankLe_trans _ _ _ hxy (h.1 z hz')

theorem sortEntries_sorted (k : Kind) (m : List (Val × Val)) (hm : ∀ y ∈ m, KeyShape k y.1) :
    (sortEntries k m).Pairwise fun a b => rankLe (keyRank k a.1) (keyRank k b.1) = true := by
  induction m with
  | nil => simp [sortEntries]
  | cons x xs ih =>
    have hxs : ∀ z ∈ xs, KeyShape k z.1 := fun z hz => hm z (by simp [hz])
    exact insertSorted_sorted k x _ (hm x (by simp))
      (fun z hz => hxs z ((sortEntries_perm k xs).mem_iff.mp hz)) (ih hxs)

theorem ascending_perm (k : Ty) (m : List (Val × Val)) : (ascending k m).Perm m := List.mergeSort_perm _ _

theorem ascending_sorted (k : Ty) (m : List (Val × Val)) :
    (ascending k m).Pairwise fun a b => rankLe (keyRank k.kind a.1) (keyRank k.kind b.1) = true :=
  List.pairwise_mergeSort (le := fun a b : Val × Val => rankLe (keyRank k.kind a.1) (keyRank k.kind b.1))
    (fun _ _ _ h1 h2 => rankLe_trans _ _ _ h1 h2) (fun _ _ => rankLe_total _ _) m

theorem pairwise_forall {α : Type} {R : α → α → Prop} (hsym : ∀ a b, R a b → R b a) {l : List α}
    (hrefl : ∀ a ∈ l, R a a) (hp : l.Pairwise R) : ∀ a ∈ l, ∀ b ∈ l, R a b := by
  induction l with
  | nil => simp
  | cons x xs ih =>
    rw [List.pairwise_cons] at hp
    intro a ha b hb
    rcases List.mem_cons.mp ha with rfl | ha' <;> rcases List.mem_cons.mp hb with rfl | hb'
    · exact hrefl _ (by simp)
    · exact hp.1 b hb'
    · exact hsym _ _ (hp.1 a ha')
    · exact ih (fun a h => hrefl a (by simp [h])) hp.2 a ha' b hb'

/-- Entries with pairwise different keys: equal rank means equal entry. -/
theorem entry_of_rank {k : Ty} (hs : orderedKey k = true) {m : List (Val × Val)} (hm : ∀ y ∈ m, KeyShape k.kind y.1)
    (hd : m.Pairwise fun x y => k.keyEq x.1 y.1 = false) {x y : Val × Val} (hx : x ∈ m) (hy : y ∈ m)
    (h : keyRank k.kind x.1 = keyRank k.kind y.1) : x = y := by
  have hp : m.Pairwise fun x y => keyRank k.kind x.1 = keyRank k.kind y.1 → x = y := by
    refine List.Pairwise.imp_of_mem ?_ hd
    intro a b ha hb hne hr
    rw [keyEq_of_rank hs (hm a ha) (hm b hb) hr] at hne
    cases hne
  refine pairwise_forall (R := fun x y => keyRank k.kind x.1 = keyRank k.kind y.1 → x = y) ?_ ?_ hp x hx y hy h
  · intro a b hab hr; exact (hab hr.symm).symm
  · intro a _ _; rfl

theorem sortEntries_eq (k : Ty) (hs : orderedKey k = true) (m : List (Val × Val)) (hm : ∀ y ∈ m, KeyShape k.kind y.1)
    (hd : m.Pairwise fun x y => k.keyEq x.1 y.1 = false) : sortEntries k.kind m = ascending k m := by
  refine List.Perm.eq_of_pairwise ?_ (sortEntries_sorted k.kind m hm) (ascending_sorted k m)
    ((sortEntries_perm _ _).trans (ascending_perm k m).symm)
  intro a b ha hb h1 h2
  exact entry_of_rank hs hm hd ((sortEntries_perm _ _).mem_iff.mp ha) ((ascending_perm k m).mem_iff.mp hb)
    (rankLe_antisymm h1 h2)

/-- The order in which the map happens to be iterated does not matter. -/
theorem ascending_congr {k : Ty} (hs : orderedKey k = true) {m m' : List (Val × Val)} (hp : m.Perm m')
    (hm : ∀ y ∈ m, KeyShape k.kind y.1) (hd : m.Pairwise fun x y => k.keyEq x.1 y.1 = false) :
    ascending k m = ascending k m' := by
  refine List.Perm.eq_of_pairwise ?_ (ascending_sorted k m) (ascending_sorted k m')
    ((ascending_perm k m).trans (hp.trans (ascending_perm k m').symm))
  intro a b ha hb h1 h2
  exact entry_of_rank hs hm hd ((ascending_perm k m).mem_iff.mp ha)
    (hp.symm.mem_iff.mp ((ascending_perm k m').mem_iff.mp hb)) (rankLe_antisymm h1 h2)

/-- Sortable, encodable, non-NaN keys have the right shape. -/
theorem keyShape_of_enc {e : Encoding} {k : Ty} (hs : orderedKey k = true) {v : Val} (h : Encodable e k none v)
    (hr : k.keyEq v v = true) : KeyShape k.kind v := by
  cases k with
  | lib l =>
    simp only [Encodable] at h
    cases l <;> cases v <;> simp_all [orderedKey, Ty.kind, Lib.kind, LibEnc, KeyShape, Ty.keyEq, Lib.keyEq, Val.plainEq, floatEq]
  | _ => cases v <;> simp_all [orderedKey, Ty.kind, Encodable, KeyShape, Ty.keyEq, Lib.keyEq, Val.plainEq, floatEq]

end Verif
