import Verif.Spec.Heap
/-!
# On variables that are not shared, the heap makes no difference
-/
namespace Verif.OnHeap
open Spec

mutual
/-- What a tree shows depends on its own cells only. -/
theorem tree_frame {h h' : Heap} : ∀ {x : HVal} {v : Val} {S : List Nat}, Tree h x v S →
    (∀ a ∈ S, h'.cell a = h.cell a) → Tree h' x v S
  | _, _, _, .leaf hv, _ => .leaf hv
  | _, _, _, .nilPtr, _ => .nilPtr
  | _, _, _, .ptr hc ht hn, hf =>
    .ptr ((hf _ (by simp)).trans hc) (tree_frame ht fun a ha => hf a (by simp [ha])) hn
  | _, _, _, .nilSeq, _ => .nilSeq
  | _, _, _, .seq hc ht hn, hf =>
    .seq ((hf _ (by simp)).trans hc) (trees_frame ht fun a ha => hf a (by simp [ha])) hn
  | _, _, _, .arr ht, hf => .arr (trees_frame ht hf)
  | _, _, _, .nilMap, _ => .nilMap
  | _, _, _, .map hc ht hn, hf =>
    .map ((hf _ (by simp)).trans hc) (pairs_frame ht fun a ha => hf a (by simp [ha])) hn
  | _, _, _, .struct ht, hf => .struct (trees_frame ht hf)
theorem trees_frame {h h' : Heap} : ∀ {xs : List HVal} {vs : List Val} {S : List Nat}, Trees h xs vs S →
    (∀ a ∈ S, h'.cell a = h.cell a) → Trees h' xs vs S
  | _, _, _, .nil, _ => .nil
  | _, _, _, .cons hx hxs hd, hf =>
    .cons (tree_frame hx fun a ha => hf a (by simp [ha])) (trees_frame hxs fun a ha => hf a (by simp [ha])) hd
theorem pairs_frame {h h' : Heap} : ∀ {m : List (HVal × HVal)} {ps : List (Val × Val)} {S : List Nat},
    TreePairs h m ps S → (∀ a ∈ S, h'.cell a = h.cell a) → TreePairs h' m ps S
  | _, _, _, .nil, _ => .nil
  | _, _, _, .cons hk hx hm hd hd', hf =>
    .cons (tree_frame hk fun a ha => hf a (by simp [ha])) (tree_frame hx fun a ha => hf a (by simp [ha]))
      (pairs_frame hm fun a ha => hf a (by simp [ha])) hd hd'
end

/-- `m` does to the heap what `m'` does to trees: outcome and decoder are the same, only cells in `W` change, and the
results are related by `R`. -/
def Sim {α β : Type} (W : Nat → Prop) (h : Heap) (R : Heap → α → β → List Nat → Prop) (m : HM α) (m' : DM β) : Prop :=
  ∀ d : Dec, (m ⟨d, h⟩).2.dec = (m' d).2 ∧ h.next ≤ (m ⟨d, h⟩).2.heap.next ∧
    (∀ a, ¬ W a → (m ⟨d, h⟩).2.heap.cell a = h.cell a) ∧
    match (m ⟨d, h⟩).1, (m' d).1 with
    | .ok y, .ok v => ∃ S, R (m ⟨d, h⟩).2.heap y v S ∧ ∀ a ∈ S, W a ∧ a < (m ⟨d, h⟩).2.heap.next
    | .err e, .err e' => e = e'
    | .panic, .panic => True
    | _, _ => False

/-- The cells `S` and the unused ones. -/
def Own (h : Heap) (S : List Nat) (a : Nat) : Prop := a ∈ S ∨ h.next ≤ a

/-- Results without memory. -/
def Same {α : Type} (_ : Heap) (y v : α) (S : List Nat) : Prop := y = v ∧ S = []

namespace Sim
variable {α β γ δ : Type} {W W' : Nat → Prop} {h : Heap} {R : Heap → α → β → List Nat → Prop}
  {Q : Heap → γ → δ → List Nat → Prop}

theorem pure' {y : α} {v : β} {S : List Nat} (hr : R h y v S) (hs : ∀ a ∈ S, W a ∧ a < h.next) :
    Sim W h R (pure y) (pure v) := fun _ => ⟨rfl, Nat.le_refl _, fun _ _ => rfl, S, hr, hs⟩

theorem err {e : Err} : Sim W h R (M.err e) (M.err e) := fun _ => ⟨rfl, Nat.le_refl _, fun _ _ => rfl, rfl⟩

theorem panic : Sim W h R M.panic M.panic := fun _ => ⟨rfl, Nat.le_refl _, fun _ _ => rfl, trivial⟩

theorem onDec {m : DM α} : Sim W h Same (onDec m) m := fun d => by
  refine ⟨rfl, Nat.le_refl _, fun _ _ => rfl, ?_⟩
  simp only [Verif.onDec]
  rcases m d with ⟨_ | _ | _, d'⟩
  · exact ⟨[], ⟨rfl, rfl⟩, by simp⟩
  · rfl
  · trivial

theorem lift {r : Res α} : Sim W h Same (M.lift r) (M.lift r) := fun d => by
  refine ⟨rfl, Nat.le_refl _, fun _ _ => rfl, ?_⟩
  rcases r with _ | _ | _
  · exact ⟨[], ⟨rfl, rfl⟩, by simp⟩
  · rfl
  · trivial

theorem bind {m : HM α} {m' : DM β} {f : α → HM γ} {f' : β → DM δ} (hm : Sim W' h R m m') (hw : ∀ a, W' a → W a)
    (hf : ∀ (h1 : Heap) (y : α) (v : β) (S : List Nat), h.next ≤ h1.next → (∀ a, ¬ W' a → h1.cell a = h.cell a) →
      R h1 y v S → (∀ a ∈ S, W' a ∧ a < h1.next) → Sim W h1 Q (f y) (f' v)) :
    Sim W h Q (m >>= f) (m' >>= f') := fun d => by
  have h1 := hm d
  simp only [M.bind_apply]
  rcases hr : m ⟨d, h⟩ with ⟨r, s⟩
  rcases hr' : m' d with ⟨r', d'⟩
  rw [hr, hr'] at h1
  obtain ⟨rfl, hn, hc, ho⟩ := h1
  cases r with
  | ok y =>
    cases r' with
    | ok v =>
      obtain ⟨S, hS, hS'⟩ := ho
      have h2 := hf s.heap y v S hn hc hS hS' s.dec
      refine ⟨h2.1, Nat.le_trans hn h2.2.1, fun a ha => (h2.2.2.1 a ha).trans (hc a fun h => ha (hw a h)), h2.2.2.2⟩
    | err e => exact ho.elim
    | panic => exact ho.elim
  | err e =>
    cases r' with
    | ok v => exact ho.elim
    | err e' => exact ⟨rfl, hn, fun a ha => hc a fun h => ha (hw a h), ho⟩
    | panic => exact ho.elim
  | panic =>
    cases r' with
    | ok v => exact ho.elim
    | err e' => exact ho.elim
    | panic => exact ⟨rfl, hn, fun a ha => hc a fun h => ha (hw a h), trivial⟩

/-- A first step that only reads with the decoder. -/
theorem read {m : DM α} {f : α → HM γ} {f' : α → DM δ} (hf : ∀ y, Sim W h Q (f y) (f' y)) :
    Sim W h Q (Verif.onDec m >>= f) (m >>= f') := fun d => by
  simp only [M.bind_apply, Verif.onDec]
  rcases m d with ⟨_ | _ | _, d'⟩
  · exact hf _ d'
  · exact ⟨rfl, Nat.le_refl _, fun _ _ => rfl, rfl⟩
  · exact ⟨rfl, Nat.le_refl _, fun _ _ => rfl, trivial⟩

theorem weaken {m : HM α} {m' : DM β} (hm : Sim W' h R m m') (hw : ∀ a, W' a → W a) : Sim W h R m m' := fun d => by
  obtain ⟨h1, h2, h3, h4⟩ := hm d
  refine ⟨h1, h2, fun a ha => h3 a fun h => ha (hw a h), ?_⟩
  revert h4
  split
  · rintro ⟨S, hr, hs⟩
    exact ⟨S, hr, fun a ha => ⟨hw a (hs a ha).1, (hs a ha).2⟩⟩
  · exact id
  · exact id
  · exact id

theorem ite' {p : Prop} [Decidable p] {a b : HM α} {a' b' : DM β} (ha : p → Sim W h R a a') (hb : ¬ p → Sim W h R b b') :
    Sim W h R (if p then a else b) (if p then a' else b') := by
  split
  · exact ha ‹_›
  · exact hb ‹_›

end Sim

/-- A call that returns values without parts. -/
def GivesFlat (m : DM Val) : Prop := ∀ d v, (m d).1 = .ok v → Flat v

theorem gives_bind {α : Type} {m : DM α} {f : α → DM Val} (hf : ∀ a, GivesFlat (f a)) : GivesFlat (m >>= f) := fun d v hv => by
  simp only [M.bind_apply] at hv
  rcases hr : m d with ⟨_ | _ | _, d'⟩ <;> rw [hr] at hv
  · exact hf _ d' v hv
  · cases hv
  · cases hv

theorem gives_pure {v : Val} (h : Flat v) : GivesFlat (pure v) := fun d w hw => by cases hw; exact h

theorem gives_panic : GivesFlat M.panic := fun _ _ h => nomatch h

theorem decScalar_flat {e : Encoding} {k : Kind} {o : Order} : GivesFlat (decScalar e k o) := by
  unfold decScalar
  split <;> first | exact gives_bind fun _ => gives_pure trivial | exact gives_panic

theorem unmarshalLib_flat {l : Lib} {x : Val} (hl : l ≠ .emptyVariant) : GivesFlat (unmarshalLib l x) := by
  cases l <;> simp only [unmarshalLib] <;> first
    | exact gives_bind fun _ => gives_pure trivial
    | exact gives_bind fun _ => gives_bind fun _ => gives_pure trivial
    | exact absurd rfl hl
    | (refine gives_bind fun d => ?_
       split
       · exact gives_panic
       · exact gives_bind fun _ => gives_pure trivial)

theorem unmarshalLib_heap {l : Lib} {x y : Val} (hl : l ≠ .emptyVariant) (h : x.endianness = y.endianness) :
    unmarshalLib l x = unmarshalLib l y := by
  cases l <;> simp only [unmarshalLib, h]
  exact absurd rfl hl

/-- A flat value read. -/
theorem Sim.flat {W : Nat → Prop} {h : Heap} {m : DM Val} (hm : GivesFlat m) :
    Sim W h Tree (Verif.onDec m >>= fun v => pure (.leaf v)) m := fun d => by
  have hf := hm d
  simp only [M.bind_apply, Verif.onDec]
  rcases hr : m d with ⟨_ | _ | _, d'⟩ <;> rw [hr] at hf
  · exact ⟨rfl, Nat.le_refl _, fun _ _ => rfl, [], .leaf (hf _ rfl), by simp⟩
  · exact ⟨rfl, Nat.le_refl _, fun _ _ => rfl, rfl⟩
  · exact ⟨rfl, Nat.le_refl _, fun _ _ => rfl, trivial⟩

/-! ### Zero values -/

theorem tree_libZero {h : Heap} (l : Lib) : Tree h l.zeroH l.zero [] := by
  cases l <;> first | exact .leaf trivial | exact .struct .nil

theorem trees_replicate {h : Heap} {x : HVal} {v : Val} (hx : Tree h x v []) : ∀ n,
    Trees h (List.replicate n x) (List.replicate n v) []
  | 0 => .nil
  | n + 1 => by
    have := Trees.cons hx (trees_replicate hx n) (by simp)
    simpa [List.replicate_succ] using this

mutual
theorem tree_zero {h : Heap} : ∀ t : Ty, Tree h t.zeroH t.zero []
  | .lib l => by simp only [Ty.zeroH, Ty.zero]; exact tree_libZero l
  | .ptr _ => by simp only [Ty.zeroH, Ty.zero]; exact .nilPtr
  | .slice _ => by simp only [Ty.zeroH, Ty.zero]; exact .nilSeq
  | .array n t => by simp only [Ty.zeroH, Ty.zero]; exact .arr (trees_replicate (tree_zero t) n)
  | .map _ _ => by simp only [Ty.zeroH, Ty.zero]; exact .nilMap
  | .struct fs => by simp only [Ty.zeroH, Ty.zero]; exact .struct (trees_zeros fs)
  | .bool | .uint _ _ | .int _ _ | .borshEnum | .f32 | .f64 | .str | .iface | .plainInt | .plainUint | .other => by
    simp only [Ty.zeroH, Ty.zero]; exact .leaf trivial
theorem trees_zeros {h : Heap} : ∀ fs : Fields, Trees h fs.zerosH fs.zeros []
  | .nil => by simp only [Fields.zerosH, Fields.zeros]; exact .nil
  | .cons _ t fs => by
    simp only [Fields.zerosH, Fields.zeros]
    exact Trees.cons (tree_zero t) (trees_zeros fs) (by simp)
end

/-! ### What comparisons see -/

theorem tree_endianness {h : Heap} {x : HVal} {v : Val} {S : List Nat} (ht : Tree h x v S) :
    x.plain.endianness = v.endianness := by
  cases ht <;> simp [HVal.plain, Val.endianness]

theorem tree_sizeof {h : Heap} {x : HVal} {v : Val} {S : List Nat} (k : Kind) (ht : Tree h x v S) :
    sizeofVal k x.plain = sizeofVal k v := by
  cases ht <;> cases k <;> simp [HVal.plain, sizeofVal]

theorem tree_plainEq {h h' : Heap} {x y : HVal} {v w : Val} {S T : List Nat} (hx : Tree h x v S) (hy : Tree h' y w T) :
    x.plain.plainEq y.plain = v.plainEq w := by
  cases hx with
  | leaf hv => cases hy <;> cases v <;> first | exact hv.elim | simp [HVal.plain, Val.plainEq]
  | _ => cases hy with
    | leaf hw => cases w <;> first | exact hw.elim | simp [HVal.plain, Val.plainEq]
    | _ => simp [HVal.plain, Val.plainEq]

theorem plains_length {h : Heap} {xs : List HVal} {vs : List Val} {S : List Nat} (ht : Trees h xs vs S) :
    (HVal.plains xs).length = vs.length := by
  induction xs generalizing vs S with
  | nil => cases ht; rfl
  | cons x xs ih =>
    cases ht with
    | cons _ hxs _ => simp [HVal.plains, ih hxs]

theorem tree_libKeyEq {h h' : Heap} {l : Lib} {x y : HVal} {v w : Val} {S T : List Nat} (hx : Tree h x v S)
    (hy : Tree h' y w T) : l.keyEq x.plain y.plain = l.keyEq v w := by
  have hp := tree_plainEq hx hy
  cases hx with
  | leaf hv =>
    cases hy with
    | leaf hw => rfl
    | _ => cases v <;> first | exact hv.elim | (cases l <;> exact hp)
  | struct hxs =>
    cases hy with
    | struct hys =>
      cases hxs with
      | nil =>
        cases hys with
        | nil => rfl
        | cons _ _ _ => cases l <;> exact hp
      | cons _ _ _ => cases l <;> exact hp
    | leaf hw => cases hxs <;> cases w <;> first | exact hw.elim | (cases l <;> exact hp)
    | _ => cases hxs <;> cases l <;> exact hp
  | _ => cases l <;> exact hp

theorem tree_f32KeyEq {h h' : Heap} {x y : HVal} {v w : Val} {S T : List Nat} (hx : Tree h x v S)
    (hy : Tree h' y w T) : Ty.keyEq .f32 x.plain y.plain = Ty.keyEq .f32 v w := by
  have hp := tree_plainEq hx hy
  cases hx with
  | leaf hv =>
    cases hy with
    | leaf hw => rfl
    | _ => cases v <;> first | exact hv.elim | (simp only [HVal.plain, Ty.keyEq] at hp ⊢ <;> exact hp)
  | _ => (simp only [HVal.plain, Ty.keyEq] at hp ⊢ <;> exact hp)

theorem tree_f64KeyEq {h h' : Heap} {x y : HVal} {v w : Val} {S T : List Nat} (hx : Tree h x v S)
    (hy : Tree h' y w T) : Ty.keyEq .f64 x.plain y.plain = Ty.keyEq .f64 v w := by
  have hp := tree_plainEq hx hy
  cases hx with
  | leaf hv =>
    cases hy with
    | leaf hw => rfl
    | _ => cases v <;> first | exact hv.elim | (simp only [HVal.plain, Ty.keyEq] at hp ⊢ <;> exact hp)
  | _ => (simp only [HVal.plain, Ty.keyEq] at hp ⊢ <;> exact hp)

mutual
theorem tree_keyEq {h h' : Heap} : ∀ (k : Ty) {x y : HVal} {v w : Val} {S T : List Nat}, Tree h x v S → Tree h' y w T →
    k.keyEq x.plain y.plain = k.keyEq v w
  | .f32, _, _, _, _, _, _, hx, hy => tree_f32KeyEq hx hy
  | .f64, _, _, _, _, _, _, hx, hy => tree_f64KeyEq hx hy
  | .lib l, _, _, _, _, _, _, hx, hy => by simp only [Ty.keyEq]; exact tree_libKeyEq hx hy
  | .array n t, x, y, v, w, _, _, hx, hy => by
    have hp := tree_plainEq hx hy
    cases hx with
    | arr hxs =>
      cases hy with
      | arr hys =>
        simp only [HVal.plain, Ty.keyEq, plains_length hxs, plains_length hys, trees_zipAll t hxs hys]
      | leaf hw => cases w <;> first | exact hw.elim | (simp only [HVal.plain, Ty.keyEq] at hp ⊢ <;> exact hp)
      | _ => (simp only [HVal.plain, Ty.keyEq] at hp ⊢ <;> exact hp)
    | leaf hv => cases v <;> first | exact hv.elim | (simp only [HVal.plain, Ty.keyEq] at hp ⊢ <;> exact hp)
    | _ => (simp only [HVal.plain, Ty.keyEq] at hp ⊢ <;> exact hp)
  | .struct fs, x, y, v, w, _, _, hx, hy => by
    have hp := tree_plainEq hx hy
    cases hx with
    | struct hxs =>
      cases hy with
      | struct hys => simp only [HVal.plain, Ty.keyEq, trees_keysEq fs hxs hys]
      | leaf hw => cases w <;> first | exact hw.elim | (simp only [HVal.plain, Ty.keyEq] at hp ⊢ <;> exact hp)
      | _ => (simp only [HVal.plain, Ty.keyEq] at hp ⊢ <;> exact hp)
    | leaf hv => cases v <;> first | exact hv.elim | (simp only [HVal.plain, Ty.keyEq] at hp ⊢ <;> exact hp)
    | _ => (simp only [HVal.plain, Ty.keyEq] at hp ⊢ <;> exact hp)
  | .ptr _, _, _, _, _, _, _, hx, hy | .slice _, _, _, _, _, _, _, hx, hy | .map _ _, _, _, _, _, _, _, hx, hy
  | .bool, _, _, _, _, _, _, hx, hy | .uint _ _, _, _, _, _, _, _, hx, hy | .int _ _, _, _, _, _, _, _, hx, hy
  | .borshEnum, _, _, _, _, _, _, hx, hy | .str, _, _, _, _, _, _, hx, hy | .iface, _, _, _, _, _, _, hx, hy
  | .plainInt, _, _, _, _, _, _, hx, hy | .plainUint, _, _, _, _, _, _, hx, hy | .other, _, _, _, _, _, _, hx, hy => by
    simp only [Ty.keyEq]; exact tree_plainEq hx hy
theorem trees_zipAll {h h' : Heap} : ∀ (k : Ty) {xs ys : List HVal} {vs ws : List Val} {S T : List Nat},
    Trees h xs vs S → Trees h' ys ws T → (((HVal.plains xs).zip (HVal.plains ys)).all fun p => k.keyEq p.1 p.2) =
      ((vs.zip ws).all fun p => k.keyEq p.1 p.2)
  | k, [], _, _, _, _, _, hx, _ => by cases hx; simp [HVal.plains]
  | k, _ :: _, [], _, _, _, _, _, hy => by cases hy; simp [HVal.plains]
  | k, x :: xs, y :: ys, _, _, _, _, hx, hy => by
    cases hx with
    | cons hx hxs _ =>
      cases hy with
      | cons hy hys _ =>
        simp only [HVal.plains, List.zip_cons_cons, List.all_cons, tree_keyEq k hx hy, trees_zipAll k hxs hys]
theorem trees_keysEq {h h' : Heap} : ∀ (fs : Fields) {xs ys : List HVal} {vs ws : List Val} {S T : List Nat},
    Trees h xs vs S → Trees h' ys ws T → fs.keysEq (HVal.plains xs) (HVal.plains ys) = fs.keysEq vs ws
  | fs, [], [], _, _, _, _, hx, hy => by cases hx; cases hy; cases fs <;> simp [HVal.plains, Fields.keysEq]
  | fs, [], _ :: _, _, _, _, _, hx, hy => by cases hx; cases hy; cases fs <;> simp [HVal.plains, Fields.keysEq]
  | fs, _ :: _, [], _, _, _, _, hx, hy => by cases hx; cases hy; cases fs <;> simp [HVal.plains, Fields.keysEq]
  | .nil, _ :: _, _ :: _, _, _, _, _, hx, hy => by cases hx; cases hy; simp [HVal.plains, Fields.keysEq]
  | .cons _ t fs, x :: xs, y :: ys, _, _, _, _, hx, hy => by
    cases hx with
    | cons hx hxs _ =>
      cases hy with
      | cons hy hys _ => simp only [HVal.plains, Fields.keysEq, tree_keyEq t hx hy, trees_keysEq fs hxs hys]
end

/-- Adding an entry. -/
theorem pairs_set {h : Heap} {t : Ty} {k x : HVal} {kv v : Val} {S T : List Nat} (hk : Tree h k kv S) (hx : Tree h x v T)
    (hd : ∀ a ∈ S, a ∉ T) : ∀ {m : List (HVal × HVal)} {ps : List (Val × Val)} {U : List Nat}, TreePairs h m ps U →
    (∀ a ∈ S ++ T, a ∉ U) →
    ∃ U', TreePairs h (setEntryH t (k, x) m) (setEntry t (kv, v) ps) U' ∧ ∀ a ∈ U', a ∈ S ++ T ++ U
  | _, _, _, .nil, hd' => ⟨_, .cons hk hx .nil hd hd', fun _ h => h⟩
  | _, _, _, .cons (m := m) (ps := ps) (S := S') (T := T') (U := U) hk' hx' hm hd1 hd2, hd' => by
    simp only [setEntryH, setEntry, tree_keyEq t hk' hk]
    split
    · refine ⟨_, .cons hk hx hm hd fun a ha hu => hd' a ha (by simp [hu]), fun a ha => ?_⟩
      simp only [List.mem_append] at ha ⊢
      rcases ha with ha | ha
      · exact .inl ha
      · exact .inr (.inr ha)
    · obtain ⟨U', hU, hs⟩ := pairs_set hk hx hd hm fun a ha hu => hd' a ha (by simp [hu])
      refine ⟨_, .cons hk' hx' hU hd1 fun a ha hu => ?_, fun a ha => ?_⟩
      · have := hs a hu
        simp only [List.mem_append] at this
        rcases this with h1 | h1
        · exact hd' a (by simpa using h1) (List.mem_append_left _ ha)
        · exact hd2 a ha h1
      · simp only [List.mem_append] at ha ⊢
        rcases ha with ha | ha
        · exact .inr (.inl ha)
        · have := hs a ha
          simp only [List.mem_append] at this
          rcases this with h1 | h1
          · exact .inl h1
          · exact .inr (.inr h1)

end Verif.OnHeap
