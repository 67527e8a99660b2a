import Verif.Spec.DynamicMap
import Verif.Proofs.Parts
import Verif.Props.Dynamic
/-! Maps and slices of interfaces, written part by part. -/
set_option linter.unusedSimpArgs false
namespace Verif
open Verif.Spec

/-! ### Sorting -/

theorem insertKeyed_perm {α : Type} (k : Kind) (x : Val × α) (m : List (Val × α)) : (insertKeyed k x m).Perm (x :: m) := by
  induction m with
  | nil => exact .refl _
  | cons y ys ih =>
    simp only [insertKeyed]
    split
    · exact (List.Perm.cons y ih).trans (List.Perm.swap x y ys)
    · exact .refl _

theorem sortKeyed_perm {α : Type} (k : Kind) (m : List (Val × α)) : (sortKeyed k m).Perm m := by
  induction m with
  | nil => exact .refl _
  | cons x xs ih => exact (insertKeyed_perm k x _).trans (List.Perm.cons x ih)

/-- Sorting looks at the keys only. -/
theorem insertKeyed_map {α β : Type} (f : α → β) (k : Kind) (x : Val × α) (m : List (Val × α)) :
    (insertKeyed k x m).map (fun y => (y.1, f y.2)) = insertKeyed k (x.1, f x.2) (m.map fun y => (y.1, f y.2)) := by
  induction m with
  | nil => rfl
  | cons y ys ih =>
    simp only [insertKeyed, List.map_cons]
    split
    · rw [List.map_cons, ih]
    · rfl

theorem sortKeyed_map {α β : Type} (f : α → β) (k : Kind) (m : List (Val × α)) :
    (sortKeyed k m).map (fun y => (y.1, f y.2)) = sortKeyed k (m.map fun y => (y.1, f y.2)) := by
  induction m with
  | nil => rfl
  | cons x xs ih => simp only [sortKeyed, List.map_cons, insertKeyed_map, ih]

theorem insertKeyed_eq (k : Kind) (x : Val × Val) (m : List (Val × Val)) : insertKeyed k x m = insertSorted k x m := by
  induction m with
  | nil => rfl
  | cons y ys ih => simp only [insertKeyed, insertSorted, ih]

theorem sortKeyed_eq (k : Kind) (m : List (Val × Val)) : sortKeyed k m = sortEntries k m := by
  induction m with
  | nil => rfl
  | cons x xs ih => simp only [sortKeyed, sortEntries, ih, insertKeyed_eq]

theorem sortKeyed_sorted {α : Type} (k : Kind) (m : List (Val × α)) (hm : ∀ y ∈ m, KeyShape k y.1) :
    (sortKeyed k m).Pairwise fun a b => rankLe (keyRank k a.1) (keyRank k b.1) = true := by
  have h := sortEntries_sorted k (m.map fun y => (y.1, Val.nil)) (by
    intro y hy
    obtain ⟨z, hz, rfl⟩ := List.mem_map.mp hy
    exact hm z hz)
  rw [← sortKeyed_eq, ← sortKeyed_map (fun _ => Val.nil), List.pairwise_map] at h
  exact h

/-- Entries with pairwise different keys: equal rank means equal entry. -/
theorem keyed_of_rank {α : Type} {k : Ty} (hs : orderedKey k = true) {m : List (Val × α)} (hm : ∀ y ∈ m, KeyShape k.kind y.1)
    (hd : m.Pairwise fun x y => k.keyEq x.1 y.1 = false) {x y : Val × α} (hx : x ∈ m) (hy : y ∈ m)
    (h : keyRank k.kind x.1 = keyRank k.kind y.1) : x = y := by
  have hp : m.Pairwise fun x y => keyRank k.kind x.1 = keyRank k.kind y.1 → x = y := by
    refine List.Pairwise.imp_of_mem ?_ hd
    intro a b ha hb hne hr
    rw [keyEq_of_rank hs (hm a ha) (hm b hb) hr] at hne
    cases hne
  refine pairwise_forall (R := fun x y => keyRank k.kind x.1 = keyRank k.kind y.1 → x = y) ?_ ?_ hp x hx y hy h
  · intro a b hab hr; exact (hab hr.symm).symm
  · intro a _ _; rfl

theorem dynOrder_perm (e : Encoding) (k : Ty) (m : List (Val × Dyn)) : (dynOrder e k m).Perm m := by
  unfold dynOrder
  split
  · exact List.mergeSort_perm _ _
  · exact .refl _

theorem dynSorted (k : Ty) (m : List (Val × Dyn)) :
    (dynOrder .borsh k m).Pairwise fun a b => rankLe (keyRank k.kind a.1) (keyRank k.kind b.1) = true :=
  List.pairwise_mergeSort (le := fun a b : Val × Dyn => rankLe (keyRank k.kind a.1) (keyRank k.kind b.1))
    (fun _ _ _ h1 h2 => rankLe_trans _ _ _ h1 h2) (fun _ _ => rankLe_total _ _) m

theorem sortKeyed_order (k : Ty) (hs : orderedKey k = true) (m : List (Val × Dyn)) (hm : ∀ y ∈ m, KeyShape k.kind y.1)
    (hd : m.Pairwise fun x y => k.keyEq x.1 y.1 = false) : sortKeyed k.kind m = dynOrder .borsh k m := by
  refine List.Perm.eq_of_pairwise ?_ (sortKeyed_sorted k.kind m hm) (dynSorted k m)
    ((sortKeyed_perm _ _).trans (dynOrder_perm .borsh k m).symm)
  intro a b ha hb h1 h2
  exact keyed_of_rank hs hm hd ((sortKeyed_perm _ _).mem_iff.mp ha) ((dynOrder_perm .borsh k m).mem_iff.mp hb)
    (rankLe_antisymm h1 h2)

theorem dynOrder_congr {k : Ty} (hs : orderedKey k = true) {m m' : List (Val × Dyn)} (hp : m.Perm m')
    (hm : ∀ y ∈ m, KeyShape k.kind y.1) (hd : m.Pairwise fun x y => k.keyEq x.1 y.1 = false) :
    dynOrder .borsh k m = dynOrder .borsh k m' := by
  refine List.Perm.eq_of_pairwise ?_ (dynSorted k m) (dynSorted k m')
    ((dynOrder_perm _ k m).trans (hp.trans (dynOrder_perm _ k m').symm))
  intro a b ha hb h1 h2
  exact keyed_of_rank hs hm hd ((dynOrder_perm _ _ _).mem_iff.mp ha)
    (hp.mem_iff.mpr ((dynOrder_perm _ _ _).mem_iff.mp hb)) (rankLe_antisymm h1 h2)

theorem encDyns_map (e : Encoding) (m : List (Val × Dyn)) : encDyns e m = m.map fun x => (x.1, encDyn e x.2) := by
  induction m with
  | nil => rfl
  | cons x xs ih => obtain ⟨a, d⟩ := x; simp only [encDyns, List.map_cons, ih]

/-- The entries as they are written. -/
theorem keyedEntries_w {e : Encoding} (k : Ty) (m : List (Val × Dyn))
    (hs : e = .borsh → orderedKey k = true) (hd : m.Pairwise fun x y => k.keyEq x.1 y.1 = false)
    (hk : ∀ x ∈ m, k.keyEq x.1 x.1 = true ∧ Encodable e k none x.1) (s : Enc) :
    keyedEntries e k (encDyns e m) s = (.ok ((dynOrder e k m).map fun x => (x.1, encDyn e x.2)), s) := by
  rw [encDyns_map]
  unfold keyedEntries
  by_cases he : e = .borsh
  · subst he
    have hs' := hs rfl
    have heq := sortKeyed_order k hs' m (fun y hy => keyShape_of_enc hs' (hk y hy).2 (hk y hy).1) hd
    rw [if_pos rfl, List.length_map, ← heq, sortKeyed_map]
    by_cases hl : m.length < 2
    · rw [if_pos hl, M.pure_apply]
      match m, hl with
      | [], _ => rfl
      | [x], _ => rfl
    · rw [if_neg hl, if_pos ((sortable_eq k).trans hs'), M.pure_apply]
  · rw [if_neg he, M.pure_apply]
    unfold dynOrder
    rw [if_neg he]

/-! ### The same on every encoder -/

theorem Local.encSlot (s : Slot) : Local (encSlot s) := by
  cases s with
  | none => exact Local.pure ()
  | some x =>
    obtain ⟨t, v⟩ := x
    simp only [Verif.encSlot]
    split
    · exact Local.marshalLib _ _
    · exact Local.marshalLib _ _
    · exact (Local.pure ()).ite Local.panic
    · exact Local.panic
    · exact Local.pure ()

theorem Local.keyed (e : Encoding) (k : Ty) (m : List (Val × EM Unit)) : Local (keyedEntries e k m) :=
  ((Local.pure _).ite ((Local.pure _).ite Local.panic)).ite (Local.pure _)

theorem Local.forEachMem {α : Type} {f : α → EM Unit} : ∀ xs : List α, (∀ a ∈ xs, Local (f a)) → Local (forEachM f xs)
  | [], _ => Local.pure ()
  | x :: xs, h => (h x (by simp)).bind fun _ => Local.forEachMem xs fun a ha => h a (by simp [ha])

theorem Local.encKeyed (e : Encoding) (k : Ty) (m : List (Val × EM Unit)) (h : ∀ x ∈ m, Local x.2) : Local (encKeyed e k m) := by
  intro s s' ha
  by_cases hp : ∃ m', keyedEntries e k m s = (.ok m', s) ∧ keyedEntries e k m s' = (.ok m', s') ∧ m'.Perm m
  · obtain ⟨m', h1, h2, h3⟩ := hp
    unfold Verif.encKeyed
    rw [M.bind_ok h1, M.bind_ok h2]
    exact ((Local.writeSeqLen _ _).bind fun _ => Local.forEachMem _ fun x hx =>
      (Local.setCur _).bind fun _ => (Local.encCore e k _ _).bind fun _ => (h x (h3.mem_iff.mp hx)).ite Local.panic) s s' ha
  · have hq : ∀ t, keyedEntries e k m t = (.panic, t) := by
      intro t
      unfold keyedEntries at hp ⊢
      by_cases he : e = .borsh
      · simp only [if_pos he] at hp ⊢
        by_cases hl : m.length < 2
        · exact absurd ⟨m, by simp [hl], by simp [hl], .refl _⟩ hp
        · simp only [if_neg hl] at hp ⊢
          by_cases hk : k.sortable = true
          · exact absurd ⟨sortKeyed k.kind m, by simp [hk], by simp [hk], sortKeyed_perm _ _⟩ hp
          · simp [hk]
      · exact absurd ⟨m, by simp [he], by simp [he], .refl _⟩ hp
    unfold Verif.encKeyed
    rw [M.bind_panic (hq s), M.bind_panic (hq s')]
    exact Local.panic s s' ha

mutual
theorem Local.encDyn (e : Encoding) : (d : Dyn) → Local (encDyn e d)
  | .nil => by simp only [Verif.encDyn]; exact Local.setCur _
  | .held t v => by simp only [Verif.encDyn]; exact (Local.setCur _).bind fun _ => Local.encCore e t _ v
  | .slice xs => by
    simp only [Verif.encDyn]
    exact (Local.setCur _).bind fun _ => (Local.writeSeqLen _ _).bind fun _ =>
      Local.forEach (fun x => (Local.setCur _).bind fun _ => Local.encSlot x) _
  | .map k m => by
    simp only [Verif.encDyn]
    exact (Local.setCur _).bind fun _ => Local.encKeyed e k _ (Local.encDyns e m)
theorem Local.encDyns (e : Encoding) : (m : List (Val × Dyn)) → ∀ x ∈ encDyns e m, Local x.2
  | [], x, hx => by simp [Verif.encDyns] at hx
  | (a, d) :: m, x, hx => by
    simp only [Verif.encDyns, List.mem_cons] at hx
    rcases hx with rfl | hx
    · exact Local.encDyn e d
    · exact Local.encDyns e m x hx
end

/-! ### Part by part -/

/-- What `setCurE` comes first does not depend on the option in force before. -/
theorem encDyn_set (e : Encoding) (d : Dyn) (s : Enc) (c : Option Order) : encDyn e d { s with cur := c } = encDyn e d s := by
  cases d <;> simp only [encDyn] <;> rfl

theorem does_dyn {e : Encoding} (he : e.valid = true) (d : Dyn) : Does e (encDyn e d) (marshalDyn e d) := by
  intro s hs hn
  have hne : e ≠ .other := by intro h; subst h; cases he
  have ha : ({ s with cur := some Order.le } : Enc).Alike { Enc.new e with cur := some Order.le } :=
    ⟨noFail_sink hn, rfl, hs, rfl⟩
  obtain ⟨r, cs, c, h1, h2⟩ := Local.encDyn e d _ _ ha
  rw [encDyn_set] at h1 h2
  have hm : marshalDyn e d = (r, cs.flatten) := by
    have : encodeDyn d (Enc.new e) = encDyn e d (Enc.new e) := by
      unfold encodeDyn
      rw [M.bind_ok (M.get_apply _), if_neg (show ¬ (Enc.new e).enc = .other from hne)]
      rfl
    unfold marshalDyn
    rw [this, h2]
    simp [Enc.left, Enc.push, Enc.out, Enc.new]
  rw [hm]
  refine ⟨cs, c, rfl, ?_⟩
  rw [h1]
  rfl

theorem marshalDyn_of {e : Encoding} (he : e.valid = true) {d : Dyn} {x : Res Unit × Bytes} (h : Does e (encDyn e d) x) :
    marshalDyn e d = x := by
  obtain ⟨cs, c, h1, h2⟩ := h (Enc.new e) rfl (fun _ _ => rfl)
  obtain ⟨cs', c', g1, g2⟩ := does_dyn he d (Enc.new e) rfl (fun _ _ => rfl)
  rw [h2, Prod.mk.injEq] at g2
  refine Prod.ext g2.1.symm ?_
  rw [← h1, ← g1]
  have : cs = cs' := by
    have := congrArg Enc.log g2.2
    simpa [Enc.left, Enc.push, Enc.new] using this
  rw [this]

end Verif
