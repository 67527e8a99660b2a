import Verif.Proofs.HeapTree
/-!
# Decoding into variables that are not shared
-/
namespace Verif.OnHeap
open Spec

theorem sim_lib {l : Lib} {h : Heap} {x : HVal} {v : Val} {S : List Nat} (hx : Tree h x v S) (hS : Used h S) :
    Sim (Own h S) h Tree (unmarshalLibH l x) (unmarshalLib l v) := by
  by_cases hl : l = .emptyVariant
  · subst hl
    exact Sim.pure' hx fun a ha => ⟨Or.inl ha, hS a ha⟩
  · have he : unmarshalLibH l x = onDec (unmarshalLib l v) >>= fun v => pure (.leaf v) := by
      rw [unmarshalLib_heap hl (tree_endianness hx).symm]
      cases l <;> first | rfl | exact absurd rfl hl
    rw [he]
    exact Sim.flat (unmarshalLib_flat hl)

/-- A new variable. -/
theorem sim_new {γ δ : Type} {W : Nat → Prop} {h : Heap} {c : Cell} {Q : Heap → γ → δ → List Nat → Prop} {f : Nat → HM γ}
    {m : DM δ} (hw : W h.next) (hf : Sim W (h.alloc c) Q (f h.next) m) : Sim W h Q (newCell c >>= f) m := fun d => by
  have h1 := hf d
  simp only [M.bind_apply, newCell]
  refine ⟨h1.1, Nat.le_trans (Nat.le_succ _) h1.2.1, fun a ha => (h1.2.2.1 a ha).trans ?_, h1.2.2.2⟩
  simp only [Heap.alloc]
  rw [if_neg]
  rintro rfl
  exact ha hw

theorem sim_load {γ δ : Type} {W : Nat → Prop} {h : Heap} {a : Nat} {Q : Heap → γ → δ → List Nat → Prop} {f : HVal → HM γ}
    {m : DM δ} (hf : Sim W h Q (f (h.var a)) m) : Sim W h Q (loadVar a >>= f) m := hf

theorem sim_store {γ δ : Type} {W : Nat → Prop} {h : Heap} {a : Nat} {x : HVal} {Q : Heap → γ → δ → List Nat → Prop}
    {f : Unit → HM γ} {m : DM δ} (hw : W a) (hf : Sim W (h.set a (.one x)) Q (f ()) m) :
    Sim W h Q (storeVar a x >>= f) m := fun d => by
  have h1 := hf d
  simp only [M.bind_apply, storeVar]
  refine ⟨h1.1, h1.2.1, fun b hb => (h1.2.2.1 b hb).trans ?_, h1.2.2.2⟩
  simp only [Heap.set]
  rw [if_neg]
  rintro rfl
  exact hb hw

/-- Follow a pointer (or allocate), change what is there, and store it back. -/
theorem sim_through {t : Ty} {h : Heap} {x : HVal} {v : Val} {S : List Nat} (hx : Tree h x v S) (hS : Used h S)
    {f : HVal → HM HVal} {m : DM Val}
    (hf : ∀ (h : Heap) (x : HVal) (S : List Nat), Tree h x (v.deref t) S → Used h S → Sim (Own h S) h Tree (f x) m) :
    Sim (Own h S) h Tree (do
      let a ← target t x
      let old ← loadVar a
      let y ← f old
      storeVar a y
      pure (.ptr (some a))) (do
      let y ← m
      pure (.ptr (some y))) := by
  have key : ∀ (h1 : Heap) (a : Nat) (x1 : HVal) (S1 : List Nat), h.next ≤ h1.next → (∀ b, ¬ Own h S b → h1.cell b = h.cell b) →
      h1.cell a = .one x1 → Tree h1 x1 (v.deref t) S1 → Used h1 S1 → a ∉ S1 → a < h1.next → Own h S a →
      (∀ b ∈ S1, Own h S b) → Sim (Own h S) h1 Tree (do
        let old ← loadVar a
        let y ← f old
        storeVar a y
        pure (.ptr (some a))) (do
        let y ← m
        pure (.ptr (some y))) := by
    intro h1 a x1 S1 hn _ hc ht hu hna ha hoa ho1
    refine sim_load ?_
    have hv : h1.var a = x1 := by simp [Heap.var, hc]
    rw [hv]
    refine Sim.bind (hf h1 x1 S1 ht hu) (fun b hb => hb.elim (ho1 b) fun hb => .inr (Nat.le_trans hn hb)) ?_
    intro h2 y w S2 hn2 hc2 hy hS2
    refine sim_store hoa (Sim.pure' (S := a :: S2) (.ptr (x := y) (by simp [Heap.set]) (tree_frame hy fun b hb => ?_) ?_) ?_)
    · simp only [Heap.set]
      rw [if_neg]
      rintro rfl
      exact (hS2 _ hb).1.elim hna (by omega)
    · intro hb
      exact (hS2 _ hb).1.elim hna (by omega)
    · intro b hb
      rcases List.mem_cons.1 hb with rfl | hb
      · exact ⟨hoa, by simp only [Heap.set]; omega⟩
      · refine ⟨(hS2 b hb).1.elim (ho1 b) fun hb => .inr (Nat.le_trans hn hb), ?_⟩
        simpa [Heap.set] using (hS2 b hb).2
  have fresh : ∀ (y : HVal), target t y = newCell (.one t.zeroH) → v.deref t = t.zero → Sim (Own h S) h Tree (do
      let a ← target t y
      let old ← loadVar a
      let y ← f old
      storeVar a y
      pure (.ptr (some a))) (do
      let y ← m
      pure (.ptr (some y))) := by
    intro y hy hv
    rw [hy]
    refine sim_new (.inr (Nat.le_refl _)) (key _ _ t.zeroH [] (Nat.le_succ _) ?_ ?_ ?_ ?_ (by simp) ?_ (.inr (Nat.le_refl _)) (by simp))
    · intro b hb
      simp only [Heap.alloc]
      rw [if_neg]
      rintro rfl
      exact hb (.inr (Nat.le_refl _))
    · simp [Heap.alloc]
    · rw [hv]; exact tree_zero t
    · simp [Used]
    · simp [Heap.alloc]
  cases hx with
  | ptr hc ht hn =>
    exact key h _ _ _ (Nat.le_refl _) (fun _ _ => rfl) hc ht (fun b hb => hS b (by simp [hb])) hn (hS _ (by simp))
      (.inl (by simp)) fun b hb => .inl (by simp [hb])
  | leaf hv =>
    refine fresh _ rfl ?_
    cases v <;> first | exact hv.elim | rfl
  | _ => exact fresh _ rfl rfl

theorem sim_zero {t : Ty} {h : Heap} {S : List Nat} : Sim (Own h S) h Tree (pure t.zeroH) (pure t.zero) :=
  Sim.pure' (S := []) (tree_zero t) (by simp)

theorem sim_absentVal : ∀ (t : Ty) {h : Heap} {x : HVal} {v : Val} {S : List Nat}, Tree h x v S → Used h S →
    Sim (Own h S) h Tree (absentValH t x) (pure (absentVal t v))
  | .ptr (.ptr t), h, x, v, S, hx, hS => by
    cases hx with
    | ptr hc ht hn =>
      rename_i a x v S
      have := sim_through (t := .ptr t) (.ptr hc ht hn) hS (f := absentValH (.ptr t)) (m := pure (absentVal (.ptr t) v))
        fun h' x' S' ht' hS' => sim_absentVal (.ptr t) ht' hS'
      rw [absentValH, absentVal]
      exact this
    | leaf hv => cases v <;> first | exact hv.elim | exact sim_zero
    | _ => exact sim_zero
  | .ptr (.lib _), _, _, _, _, _, _ | .ptr (.slice _), _, _, _, _, _, _ | .ptr (.array _ _), _, _, _, _, _, _
  | .ptr (.map _ _), _, _, _, _, _, _ | .ptr (.struct _), _, _, _, _, _, _ | .ptr .bool, _, _, _, _, _, _
  | .ptr (.uint _ _), _, _, _, _, _, _ | .ptr (.int _ _), _, _, _, _, _, _ | .ptr .borshEnum, _, _, _, _, _, _
  | .ptr .f32, _, _, _, _, _, _ | .ptr .f64, _, _, _, _, _, _ | .ptr .str, _, _, _, _, _, _
  | .ptr .iface, _, _, _, _, _, _ | .ptr .plainInt, _, _, _, _, _, _ | .ptr .plainUint, _, _, _, _, _, _
  | .ptr .other, _, _, _, _, _, _
  | .lib _, _, _, _, _, _, _ | .slice _, _, _, _, _, _, _ | .array _ _, _, _, _, _, _, _ | .map _ _, _, _, _, _, _, _
  | .struct _, _, _, _, _, _, _ | .bool, _, _, _, _, _, _ | .uint _ _, _, _, _, _, _, _ | .int _ _, _, _, _, _, _, _
  | .borshEnum, _, _, _, _, _, _ | .f32, _, _, _, _, _, _ | .f64, _, _, _, _, _, _ | .str, _, _, _, _, _, _
  | .iface, _, _, _, _, _, _ | .plainInt, _, _, _, _, _, _ | .plainUint, _, _, _, _, _, _ | .other, _, _, _, _, _, _ => by
    simp only [absentValH, absentVal]
    exact sim_zero

theorem sim_absentBase : ∀ (t : Ty) {h : Heap} {x : HVal} {v : Val} {S : List Nat}, Tree h x v S → Used h S →
    Sim (Own h S) h Tree (absentBaseH t x) (pure (absentBase t))
  | .ptr t, h, x, v, S, hx, hS => by
    have := sim_through (t := t) hx hS (f := absentBaseH t) (m := pure (absentBase t))
      fun h' x' S' ht' hS' => sim_absentBase t ht' hS'
    rw [absentBaseH, absentBase]
    exact this
  | .lib _, _, _, _, _, _, _ | .slice _, _, _, _, _, _, _ | .array _ _, _, _, _, _, _, _ | .map _ _, _, _, _, _, _, _
  | .struct _, _, _, _, _, _, _ | .bool, _, _, _, _, _, _ | .uint _ _, _, _, _, _, _, _ | .int _ _, _, _, _, _, _, _
  | .borshEnum, _, _, _, _, _, _ | .f32, _, _, _, _, _, _ | .f64, _, _, _, _, _, _ | .str, _, _, _, _, _, _
  | .iface, _, _, _, _, _, _ | .plainInt, _, _, _, _, _, _ | .plainUint, _, _, _, _, _, _ | .other, _, _, _, _, _, _ => by
    simp only [absentBaseH, absentBase]
    exact sim_zero

theorem sim_field {e : Encoding} {t : Ty} {o : Opt} {h : Heap} {x : HVal} {v : Val} {S : List Nat} {core : HM HVal} {m : DM Val}
    (hx : Tree h x v S) (hS : Used h S) (hc : Sim (Own h S) h Tree core m) :
    Sim (Own h S) h Tree (decFieldH e t o x core) (decField e t o v m) := by
  unfold decFieldH decField
  exact Sim.read fun _ => Sim.ite' (fun _ => Sim.ite' (fun _ => Sim.panic) fun _ => Sim.read fun p => Sim.ite' (fun _ =>
    Sim.ite' (fun _ => Sim.ite' (fun _ => Sim.panic) fun _ => Sim.read fun q => Sim.ite' (fun _ => hc) fun _ =>
      sim_absentBase t hx hS) fun _ => hc) fun _ => sim_absentVal t hx hS) fun _ => Sim.ite' (fun _ =>
      Sim.ite' (fun _ => Sim.panic) fun _ => Sim.read fun q => Sim.ite' (fun _ => hc) fun _ => sim_absentVal t hx hS) fun _ => hc

/-- First `m` on the cells `S`, then `n` on the disjoint cells `T`. -/
theorem sim_both {α β γ δ ε ζ : Type} {h : Heap} {S T : List Nat} {R : Heap → α → β → List Nat → Prop}
    {Q : Heap → γ → δ → List Nat → Prop} {F : Heap → ε → ζ → List Nat → Prop} {m : HM α} {m' : DM β} {n : α → HM γ}
    {n' : β → DM δ} {f : α → γ → ε} {f' : β → δ → ζ}
    (hd : ∀ a ∈ S, a ∉ T) (hT : Used h T) (hm : Sim (Own h S) h R m m')
    (hR : ∀ h h' y v S, R h y v S → (∀ a ∈ S, h'.cell a = h.cell a) → R h' y v S)
    (hn : ∀ h1 y v S1, R h1 y v S1 → h.next ≤ h1.next → (∀ a ∈ T, h1.cell a = h.cell a) →
      Sim (Own h1 T) h1 Q (n y) (n' v))
    (hF : ∀ h y v S z w T, R h y v S → Q h z w T → (∀ a ∈ S, a ∉ T) → F h (f y z) (f' v w) (S ++ T)) :
    Sim (Own h (S ++ T)) h F (do
      let y ← m
      let z ← n y
      pure (f y z)) (do
      let v ← m'
      let w ← n' v
      pure (f' v w)) := by
  refine Sim.bind hm (fun a ha => ha.elim (fun ha => .inl (by simp [ha])) .inr) ?_
  intro h1 y v S1 hn1 hc1 hy hS1
  have hT1 : ∀ a ∈ T, ¬ Own h S a := fun a ha ho => ho.elim (fun hs => hd a hs ha) fun hh => by
    have := hT a ha
    omega
  refine Sim.bind (hn h1 y v S1 hy hn1 fun a ha => hc1 a (hT1 a ha)) (fun a ha => ha.elim (fun ha => .inl (by simp [ha])) fun ha =>
    .inr (Nat.le_trans hn1 ha)) ?_
  intro h2 z w T1 hn2 hc2 hz hT2
  have hS1T : ∀ a ∈ S1, ¬ Own h1 T a := fun a ha ho => ho.elim (fun ht => hT1 a ht (hS1 a ha).1) fun hh => by
    have := (hS1 a ha).2
    omega
  refine Sim.pure' (hF h2 y v S1 z w T1 (hR h1 h2 y v S1 hy fun a ha => hc2 a (hS1T a ha)) hz fun a ha ht =>
    hS1T a ha (hT2 a ht).1) fun a ha => ?_
  rcases List.mem_append.1 ha with ha | ha
  · have := (hS1 a ha).2
    exact ⟨(hS1 a ha).1.elim (fun hh => .inl (by simp [hh])) .inr, by omega⟩
  · exact ⟨(hT2 a ha).1.elim (fun hh => .inl (by simp [hh])) fun hh => .inr (Nat.le_trans hn1 hh), (hT2 a ha).2⟩

/-- The same with a step in between that looks at the first result only: first `m` on the cells `S`, then `n` on the disjoint cells `T`. -/
theorem sim_both_lift {α β γ δ ε ζ ν : Type} {h : Heap} {S T : List Nat} {R : Heap → α → β → List Nat → Prop}
    {Q : Heap → γ → δ → List Nat → Prop} {F : Heap → ε → ζ → List Nat → Prop} {m : HM α} {m' : DM β} {r : α → HM ν} {r' : β → DM ν}
    {n : α → ν → HM γ} {n' : β → ν → DM δ} {f : α → γ → ε} {f' : β → δ → ζ}
    (hd : ∀ a ∈ S, a ∉ T) (hT : Used h T) (hm : Sim (Own h S) h R m m')
    (hR : ∀ h h' y v S, R h y v S → (∀ a ∈ S, h'.cell a = h.cell a) → R h' y v S)
    (hr : ∀ h y v S, R h y v S → ∃ q, r y = M.lift q ∧ r' v = M.lift q)
    (hn : ∀ h1 y v S1 s, R h1 y v S1 → h.next ≤ h1.next → (∀ a ∈ T, h1.cell a = h.cell a) →
      Sim (Own h1 T) h1 Q (n y s) (n' v s))
    (hF : ∀ h y v S z w T, R h y v S → Q h z w T → (∀ a ∈ S, a ∉ T) → F h (f y z) (f' v w) (S ++ T)) :
    Sim (Own h (S ++ T)) h F (do
      let y ← m
      let s ← r y
      let z ← n y s
      pure (f y z)) (do
      let v ← m'
      let s ← r' v
      let w ← n' v s
      pure (f' v w)) := by
  refine Sim.bind hm (fun a ha => ha.elim (fun ha => .inl (by simp [ha])) .inr) ?_
  intro h1 y v S1 hn1 hc1 hy hS1
  have hT1 : ∀ a ∈ T, ¬ Own h S a := fun a ha ho => ho.elim (fun hs => hd a hs ha) fun hh => by
    have := hT a ha
    omega
  obtain ⟨q, hq, hq'⟩ := hr h1 y v S1 hy
  rw [hq, hq']
  cases q with
  | err e => exact Sim.err
  | panic => exact Sim.panic
  | ok s =>
  change Sim _ h1 _ (n y s >>= fun z => pure (f y z)) (n' v s >>= fun w => pure (f' v w))
  refine Sim.bind (hn h1 y v S1 s hy hn1 fun a ha => hc1 a (hT1 a ha)) (fun a ha => ha.elim (fun ha => .inl (by simp [ha])) fun ha =>
    .inr (Nat.le_trans hn1 ha)) ?_
  intro h2 z w T1 hn2 hc2 hz hT2
  have hS1T : ∀ a ∈ S1, ¬ Own h1 T a := fun a ha ho => ho.elim (fun ht => hT1 a ht (hS1 a ha).1) fun hh => by
    have := (hS1 a ha).2
    omega
  refine Sim.pure' (hF h2 y v S1 z w T1 (hR h1 h2 y v S1 hy fun a ha => hc2 a (hS1T a ha)) hz fun a ha ht =>
    hS1T a ha (hT2 a ht).1) fun a ha => ?_
  rcases List.mem_append.1 ha with ha | ha
  · have := (hS1 a ha).2
    exact ⟨(hS1 a ha).1.elim (fun hh => .inl (by simp [hh])) .inr, by omega⟩
  · exact ⟨(hT2 a ha).1.elim (fun hh => .inl (by simp [hh])) fun hh => .inr (Nat.le_trans hn1 hh), (hT2 a ha).2⟩

theorem sim_traverse {f : HVal → HM HVal} {f' : Val → DM Val}
    (hf : ∀ (h : Heap) (x : HVal) (v : Val) (S : List Nat), Tree h x v S → Used h S → Sim (Own h S) h Tree (f x) (f' v)) :
    ∀ (xs : List HVal) {h : Heap} {vs : List Val} {S : List Nat}, Trees h xs vs S → Used h S →
    Sim (Own h S) h Trees (traverseM f xs) (traverseM f' vs)
  | [], h, _, _, hx, _ => by
    cases hx
    exact Sim.pure' (S := []) .nil (by simp)
  | x :: xs, h, _, _, hx, hS => by
    cases hx with
    | cons hx hxs hd =>
      simp only [traverseM]
      exact sim_both hd (fun a ha => hS a (by simp [ha])) (hf h x _ _ hx fun a ha => hS a (by simp [ha]))
        (fun _ _ _ _ _ => tree_frame) (fun h1 y v S1 _ hn hT => sim_traverse hf xs (trees_frame hxs fun a ha => hT a ha)
          fun a ha => Nat.lt_of_lt_of_le (hS a (by simp [ha])) hn) fun _ _ _ _ _ _ _ hy hz hd => Trees.cons hy hz hd

/-- Repeated calls that only make new cells. -/
theorem sim_repeat {α β : Type} {R : Heap → α → β → List Nat → Prop} {L : Heap → List α → List β → List Nat → Prop}
    {m : HM α} {m' : DM β} (hm : ∀ h, Sim (Own h []) h R m m')
    (hR : ∀ h h' y v S, R h y v S → (∀ a ∈ S, h'.cell a = h.cell a) → R h' y v S)
    (hn : ∀ h, L h [] [] [])
    (hc : ∀ h y v S z w T, R h y v S → L h z w T → (∀ a ∈ S, a ∉ T) → L h (y :: z) (v :: w) (S ++ T)) :
    ∀ (n : Nat) (h : Heap), Sim (Own h []) h L (repeatM m n) (repeatM m' n)
  | 0, h => Sim.pure' (S := []) (hn h) (by simp)
  | n + 1, h => by
    simp only [repeatM]
    exact sim_both (S := []) (T := []) (by simp) (by simp [Used]) (hm h) hR
      (fun h1 _ _ _ _ _ _ => sim_repeat hm hR hn hc n h1) hc

theorem trees_tail {h : Heap} {xs : List HVal} {vs : List Val} {S : List Nat} (hx : Trees h xs vs S) :
    ∃ T, Trees h xs.tail vs.tail T ∧ ∀ a ∈ T, a ∈ S := by
  cases hx with
  | nil => exact ⟨[], .nil, by simp⟩
  | cons _ hxs _ => exact ⟨_, hxs, fun a ha => by simp [ha]⟩

theorem sim_struct {e : Encoding} {fs : Fields} {h : Heap} {S : List Nat} {m : HM (List HVal)} {m' : DM (List Val)}
    {n : Nat → HM (List HVal)} {n' : Nat → DM (List Val)} (hm : Sim (Own h S) h Trees m m')
    (hn : ∀ i, Sim (Own h S) h Trees (n i) (n' i)) : Sim (Own h S) h Tree (decStructH e fs m n) (decStruct e fs m' n') := by
  unfold decStructH decStruct
  refine Sim.ite' (fun _ => Sim.read fun tag => Sim.ite' (fun _ => Sim.err) fun _ => Sim.bind (hn _) (fun _ h => h) ?_) fun _ =>
    Sim.bind hm (fun _ h => h) fun h1 y v S1 _ _ hy hS => Sim.pure' (.struct hy) hS
  intro h1 y v S1 _ _ hy hS
  obtain ⟨T, hT, hs⟩ := trees_tail hy
  exact Sim.pure' (S := [] ++ T) (.struct (.cons (.leaf trivial) hT (by simp))) fun a ha => hS a (hs a (by simpa using ha))

theorem tree_elems {h : Heap} {n : Nat} {t : Ty} {x : HVal} {v : Val} {S : List Nat} (hx : Tree h x v S) :
    ∃ T, Trees h (x.elems n t) (v.elems n t) T ∧ ∀ a ∈ T, a ∈ S := by
  cases hx with
  | arr hxs => exact ⟨_, hxs, fun _ h => h⟩
  | leaf hv => cases v <;> first | exact hv.elim | exact ⟨[], trees_replicate (tree_zero t) n, by simp⟩
  | _ => exact ⟨[], trees_replicate (tree_zero t) n, by simp⟩

theorem tree_fields {h : Heap} {fs : Fields} {x : HVal} {v : Val} {S : List Nat} (hx : Tree h x v S) :
    ∃ T, Trees h (x.fields fs) (v.fields fs) T ∧ ∀ a ∈ T, a ∈ S := by
  cases hx with
  | struct hxs => exact ⟨_, hxs, fun _ h => h⟩
  | leaf hv => cases v <;> first | exact hv.elim | exact ⟨[], trees_zeros fs, by simp⟩
  | _ => exact ⟨[], trees_zeros fs, by simp⟩

theorem own_sub {h : Heap} {S T : List Nat} (hs : ∀ a ∈ T, a ∈ S) (a : Nat) (ha : Own h T a) : Own h S a :=
  ha.elim (fun h => .inl (hs a h)) .inr

/-- `readUints` returns unsigned integers. -/
theorem readUints_flat {l : Int} {w : Width} {d : Dec} {xs : List Val} (h : (readUints l w d).1 = .ok xs) :
    ∀ x ∈ xs, Flat x := by
  have key : ∀ {α : Type} (m : DM (List α)) (f : α → Val), (∀ a, Flat (f a)) →
      ((m >>= fun ns => pure (ns.map f)) d).1 = .ok xs → ∀ x ∈ xs, Flat x := by
    intro α m f hf h x hx
    simp only [M.bind_apply] at h
    rcases hr : m d with ⟨_ | _ | _, d'⟩ <;> rw [hr] at h
    · cases h
      simp only [List.mem_map] at hx
      obtain ⟨a, _, rfl⟩ := hx
      exact hf a
    · cases h
    · cases h
  unfold readUints at h
  simp only [M.bind_apply, M.get] at h
  split at h
  · cases h
  · split at h
    · exact key _ (fun b : UInt8 => .uint b.toNat) (fun _ => trivial) h
    · split at h
      · cases h
      · exact key _ Val.uint (fun _ => trivial) h

theorem trees_flat {h : Heap} : ∀ {xs : List Val}, (∀ x ∈ xs, Flat x) → Trees h (xs.map .leaf) xs []
  | [], _ => .nil
  | x :: xs, hf => .cons (S := []) (T := []) (.leaf (hf x (by simp))) (trees_flat fun y hy => hf y (by simp [hy])) (by simp)

/-- Unsigned integers read in bulk. -/
theorem sim_uints {γ δ : Type} {W : Nat → Prop} {h : Heap} {l : Int} {w : Width} {Q : Heap → γ → δ → List Nat → Prop}
    {f : List Val → HM γ} {f' : List Val → DM δ} (hf : ∀ xs, (∀ x ∈ xs, Flat x) → Sim W h Q (f xs) (f' xs)) :
    Sim W h Q (onDec (readUints l w) >>= f) (readUints l w >>= f') := fun d => by
  have hu := fun xs => readUints_flat (l := l) (w := w) (d := d) (xs := xs)
  simp only [M.bind_apply, onDec]
  rcases hr : readUints l w d with ⟨_ | _ | _, d'⟩ <;> rw [hr] at hu
  · exact hf _ (hu _ rfl) d'
  · exact ⟨rfl, Nat.le_refl _, fun _ _ => rfl, rfl⟩
  · exact ⟨rfl, Nat.le_refl _, fun _ _ => rfl, trivial⟩

theorem recordSize_lift {m : FieldMeta} {t : Ty} {x : HVal} {v : Val} {sm : List (Bytes × Int)} {h : Heap} {S : List Nat}
    (hx : Tree h x v S) : ∃ q : Res (List (Bytes × Int)),
    (recordSize m t x.plain sm : HM _) = M.lift q ∧ (recordSize m t v sm : DM _) = M.lift q := by
  unfold recordSize
  rw [tree_sizeof t.kind hx]
  split
  · exact ⟨.ok sm, rfl, rfl⟩
  · cases sizeofVal t.kind v with
    | ok n => exact ⟨.ok _, rfl, rfl⟩
    | err e => exact ⟨.err e, rfl, rfl⟩
    | panic => exact ⟨.panic, rfl, rfl⟩

/-- A new cell at the end. -/
theorem sim_cell {h : Heap} {W : Nat → Prop} {c : Cell} {S : List Nat} {x : HVal} {v : Val}
    (hw : W h.next) (hx : Tree (h.alloc c) x v (h.next :: S)) (hS : ∀ a ∈ S, W a ∧ a < h.next) {f : Nat → HVal}
    (hf : f h.next = x) : Sim W h Tree (newCell c >>= fun a => pure (f a)) (pure v) := by
  refine sim_new hw (Sim.pure' (S := h.next :: S) (hf ▸ hx) fun a ha => ?_)
  rcases List.mem_cons.1 ha with rfl | ha
  · exact ⟨hw, by simp [Heap.alloc]⟩
  · exact ⟨(hS a ha).1, by have := (hS a ha).2; simp only [Heap.alloc]; omega⟩

theorem alloc_keeps {h : Heap} {c : Cell} {S : List Nat} (hS : ∀ a ∈ S, a < h.next) :
    ∀ a ∈ S, (h.alloc c).cell a = h.cell a := fun a ha => by
  have := hS a ha
  simp only [Heap.alloc]
  rw [if_neg]
  omega

theorem pairs_fold {h : Heap} {t : Ty} : ∀ {xs : List (HVal × HVal)} {vs : List (Val × Val)} {S : List Nat},
    TreePairs h xs vs S → ∀ {m : List (HVal × HVal)} {ps : List (Val × Val)} {T : List Nat}, TreePairs h m ps T →
    (∀ a ∈ S, a ∉ T) →
    ∃ U, TreePairs h (xs.foldl (fun m x => setEntryH t x m) m) (vs.foldl (fun m x => setEntry t x m) ps) U ∧
      ∀ a ∈ U, a ∈ S ∨ a ∈ T
  | _, _, _, .nil, _, _, T, hm, _ => ⟨T, hm, fun _ h => .inr h⟩
  | _, _, _, .cons (S := S) (T := S') (U := V) hk hx hxs hd1 hd2, _, _, T, hm, hd => by
    obtain ⟨U1, hU1, hs1⟩ := pairs_set (t := t) hk hx hd1 hm fun a ha => hd a (List.mem_append_left _ ha)
    obtain ⟨U2, hU2, hs2⟩ := pairs_fold (t := t) hxs hU1 fun a ha hu => by
      have := hs1 a hu
      simp only [List.mem_append] at this
      rcases this with h1 | h1
      · exact hd2 a (List.mem_append.2 h1) ha
      · exact hd a (List.mem_append_right _ ha) h1
    refine ⟨U2, hU2, fun a ha => ?_⟩
    rcases hs2 a ha with h1 | h1
    · exact .inl (List.mem_append_right _ h1)
    · have := hs1 a h1
      simp only [List.mem_append] at this ⊢
      rcases this with h1 | h1
      · exact .inl (.inl h1)
      · exact .inr h1

theorem bind_assoc_heap {σ α β γ : Type} (m : M σ α) (f : α → M σ β) (g : β → M σ γ) :
    (m >>= f) >>= g = m >>= fun a => f a >>= g := by
  funext s
  simp only [M.bind_apply]
  rcases m s with ⟨_ | _ | _, s'⟩ <;> rfl

/-- The length of a slice. -/
def sliceLen (e : Encoding) (o : Opt) : DM Int :=
  match o.sizeOf with
  | some s => pure s
  | none => do
    let n ← readSeqLen e
    pure (n : Int)

theorem decH_slice {e : Encoding} {t : Ty} {o : Opt} {x : HVal} : decH e (.slice t) o x = (do
    let l ← onDec (sliceLen e o)
    if e = .borsh ∧ l = 0 then pure x
    else do
      let d ← onDec M.get
      if l > d.remaining then M.err .eof
      else
        match t.uintKind with
        | some w => do
          let xs ← onDec (readUints l w)
          let a ← newCell (.many (xs.map .leaf))
          pure (.seq (some a))
        | none => do
          let xs ← repeatM (do onDec (setCurD .le); decH e t {} t.zeroH) l.toNat
          let a ← newCell (.many xs)
          pure (.seq (some a))) := by
  rw [decH]
  rfl

theorem decCore_slice {e : Encoding} {t : Ty} {o : Opt} {old : Val} : decCore e (.slice t) o old = (do
    let l ← sliceLen e o
    if e = .borsh ∧ l = 0 then pure old
    else do
      let d ← M.get
      if l > d.remaining then M.err .eof
      else
        match t.uintKind with
        | some w => do
          let xs ← readUints l w
          pure (.seq (some xs))
        | none => do
          let xs ← repeatM (do setCurD .le; decCore e t {} t.zero) l.toNat
          pure (.seq (some xs))) := by
  rw [decCore, sliceLen]
  cases o.sizeOf with
  | some s => rfl
  | none => exact (bind_assoc_heap _ _ _).symm

/-- A library value in a new variable. -/
theorem Sim.boxed {l : Lib} {h : Heap} {x : HVal} {v : Val} (hx : Tree h x v []) {p : Bool} :
    Sim (Own h []) h (fun h y v S => Tree h y (if p then .ptr (some v) else v) S) (unmarshalLibH l x >>= Verif.boxed p)
      (unmarshalLib l v) := fun d => by
  have h1 := sim_lib (l := l) hx (by simp [Used]) d
  simp only [M.bind_apply]
  rcases hr : unmarshalLibH l x ⟨d, h⟩ with ⟨r, s⟩
  rcases hr' : unmarshalLib l v d with ⟨r', d'⟩
  rw [hr, hr'] at h1
  obtain ⟨rfl, hn, hc, ho⟩ := h1
  cases r with
  | ok y =>
    cases r' with
    | ok w =>
      obtain ⟨S, hS, hS'⟩ := ho
      cases p with
      | false => exact ⟨rfl, hn, hc, S, hS, hS'⟩
      | true =>
        have hlt : ∀ a ∈ S, a < s.heap.next := fun a ha => (hS' a ha).2
        refine ⟨rfl, Nat.le_succ_of_le hn, fun a ha => ?_, s.heap.next :: S, ?_, fun a ha => ?_⟩
        · refine Eq.trans ?_ (hc a ha)
          simp only [Verif.boxed, if_true, M.bind_apply, newCell, Heap.alloc, M.pure_apply]
          rw [if_neg]
          rintro rfl
          exact ha (.inr hn)
        · exact .ptr (x := y) (by simp [Verif.boxed, M.bind_apply, newCell, Heap.alloc]) (tree_frame hS (alloc_keeps hlt))
            fun ha => by have := hlt _ ha; omega
        · rcases List.mem_cons.1 ha with rfl | ha
          · exact ⟨.inr hn, Nat.lt_succ_self _⟩
          · exact ⟨(hS' a ha).1, Nat.lt_succ_of_lt (hlt a ha)⟩
    | err e => exact ho.elim
    | panic => exact ho.elim
  | err e =>
    cases r' with
    | ok v => exact ho.elim
    | err e' => exact ⟨rfl, hn, hc, ho⟩
    | panic => exact ho.elim
  | panic =>
    cases r' with
    | ok v => exact ho.elim
    | err e' => exact ho.elim
    | panic => exact ⟨rfl, hn, hc, trivial⟩

mutual
theorem sim_dec (e : Encoding) : ∀ (t : Ty) (o : Opt) {h : Heap} {x : HVal} {v : Val} {S : List Nat}, Tree h x v S →
    Used h S → Sim (Own h S) h Tree (decH e t o x) (decCore e t o v)
  | .lib l, _, _, _, _, _, hx, hS => by simp only [decH, decCore]; exact sim_lib hx hS
  | .ptr t, o, _, _, _, _, hx, hS => by
    simp only [decH, decCore]
    exact sim_through hx hS fun _ _ _ ht' hS' => sim_dec e t o ht' hS'
  | .slice t, o, h, x, v, S, hx, hS => by
    rw [decH_slice, decCore_slice]
    refine Sim.read fun l => Sim.ite' (fun _ => Sim.pure' hx fun a ha => ⟨Or.inl ha, hS a ha⟩) fun _ => Sim.read fun d =>
      Sim.ite' (fun _ => Sim.err) fun _ => ?_
    cases t.uintKind with
    | some w =>
      exact sim_uints fun xs hxs => sim_cell (S := []) (.inr (Nat.le_refl _))
        (.seq (by simp [Heap.alloc]) (trees_flat hxs) (by simp)) (by simp) rfl
    | none =>
      refine Sim.bind (sim_repeat (R := Tree) (L := Trees) (fun h => Sim.read fun _ => sim_dec e t {} (tree_zero t) (by simp [Used]))
        (fun _ _ _ _ _ => tree_frame) (fun _ => .nil) (fun _ _ _ _ _ _ _ hy hz hd => .cons hy hz hd) _ h)
        (own_sub (by simp)) ?_
      intro h1 y w S1 hn1 _ hy hS1
      refine sim_cell (S := S1) (.inr hn1) (.seq (by simp [Heap.alloc]) (trees_frame hy (alloc_keeps fun a ha => (hS1 a ha).2)) fun ha => ?_)
        (fun a ha => ⟨own_sub (by simp) a (hS1 a ha).1, (hS1 a ha).2⟩) rfl
      have := (hS1 _ ha).2
      omega
  | .array n t, _, h, x, v, S, hx, hS => by
    simp only [decH, decCore]
    cases t.uintKind with
    | some w => exact sim_uints fun xs hxs => Sim.pure' (.arr (trees_flat hxs)) (by simp)
    | none =>
      obtain ⟨T, hT, hs⟩ := tree_elems (n := n) (t := t) hx
      exact Sim.bind (sim_traverse (fun h x v S hx hS => Sim.read fun _ => sim_dec e t {} hx hS) _ hT fun a ha => hS a (hs a ha))
        (own_sub hs) fun h1 y w S1 _ _ hy hS1 => Sim.pure' (.arr hy) fun a ha => ⟨own_sub hs a (hS1 a ha).1, (hS1 a ha).2⟩
  | .map k t, _, h, x, v, S, hx, hS => by
    simp only [decH, decCore]
    refine Sim.read fun l => Sim.ite' (fun _ => Sim.pure' hx fun a ha => ⟨Or.inl ha, hS a ha⟩) fun _ => ?_
    refine Sim.bind (sim_repeat (R := fun h y v S => ∃ S1 S2, Tree h y.1 v.1 S1 ∧ Tree h y.2 v.2 S2 ∧ (∀ a ∈ S1, a ∉ S2) ∧ S = S1 ++ S2)
      (L := TreePairs) (fun h => ?_) ?_ (fun _ => .nil) ?_ _ h) (own_sub (by simp)) ?_
    · refine Sim.read fun _ => ?_
      exact sim_both (S := []) (T := []) (R := Tree) (Q := Tree) (by simp) (by simp [Used]) (sim_dec e k {} (tree_zero k) (by simp [Used]))
        (fun _ _ _ _ _ => tree_frame) (n := fun _ => do onDec (setCurD .le); decH e t {} t.zeroH)
        (n' := fun _ => do setCurD .le; decCore e t {} t.zero)
        (fun h1 _ _ _ _ _ _ => Sim.read fun _ => sim_dec e t {} (tree_zero t) (by simp [Used]))
        (f := Prod.mk) (f' := Prod.mk) (fun _ _ _ _ _ _ _ hy hz hd => ⟨_, _, hy, hz, hd, rfl⟩)
    · rintro h h' y v S ⟨S1, S2, h1, h2, hd, rfl⟩ hf
      exact ⟨S1, S2, tree_frame h1 fun a ha => hf a (by simp [ha]), tree_frame h2 fun a ha => hf a (by simp [ha]), hd, rfl⟩
    · rintro h ⟨y1, y2⟩ ⟨v1, v2⟩ S z w T ⟨S1, S2, h1, h2, hd, rfl⟩ hz hd'
      exact .cons h1 h2 hz hd hd'
    · intro h1 y w S1 hn1 _ hy hS1
      obtain ⟨U, hU, hs⟩ := pairs_fold (t := k) hy .nil (by simp)
      have hU1 : ∀ a ∈ U, a ∈ S1 := fun a ha => by simpa using hs a ha
      refine sim_cell (S := U) (.inr hn1) (.map (by simp [Heap.alloc]) (pairs_frame hU (alloc_keeps fun a ha => (hS1 a (hU1 a ha)).2))
        fun ha => ?_) (fun a ha => ⟨own_sub (by simp) a (hS1 a (hU1 a ha)).1, (hS1 a (hU1 a ha)).2⟩) rfl
      have := (hS1 _ (hU1 _ ha)).2
      omega
  | .struct fs, _, h, x, v, S, hx, hS => by
    simp only [decH, decCore]
    obtain ⟨T, hT, hs⟩ := tree_fields (fs := fs) hx
    have hu : Used h T := fun a ha => hS a (hs a ha)
    exact Sim.weaken (sim_struct (sim_fields e fs _ _ hT hu) fun i => sim_nth e fs i hT hu) (own_sub hs)
  | .iface, _, _, _, _, _, hx, hS => by simp only [decH, decCore]; exact Sim.pure' hx fun a ha => ⟨Or.inl ha, hS a ha⟩
  | .bool, _, _, _, _, _, _, _ | .uint _ _, _, _, _, _, _, _, _ | .int _ _, _, _, _, _, _, _, _ | .borshEnum, _, _, _, _, _, _, _
  | .f32, _, _, _, _, _, _, _ | .f64, _, _, _, _, _, _, _ | .str, _, _, _, _, _, _, _ => by
    simp only [decH, decCore]; exact Sim.flat decScalar_flat
  | .plainInt, _, _, _, _, _, _, _ | .plainUint, _, _, _, _, _, _, _ | .other, _, _, _, _, _, _, _ => by
    simp only [decH, decCore]; exact Sim.err
theorem sim_fields (e : Encoding) : ∀ (fs : Fields) (sm : List (Bytes × Int)) (seen : Bool) {xs : List HVal} {h : Heap}
    {vs : List Val} {S : List Nat}, Trees h xs vs S → Used h S →
    Sim (Own h S) h Trees (decFieldsH e fs sm seen xs) (decFields e fs sm seen vs)
  | .nil, _, _, _, _, _, _, _, _ => by simp only [decFieldsH, decFields]; exact Sim.pure' (S := []) .nil (by simp)
  | .cons m t fs, sm, seen, _, _, _, _, .nil, _ => by simp only [decFieldsH, decFields]; exact Sim.panic
  | .cons m t fs, sm, seen, _, h, _, _, .cons (x := x) (v := v) (xs := xs) (vs := vs) (S := S) (T := T) hx hxs hd, hS => by
    have hSx : Used h S := fun a ha => hS a (by simp [ha])
    have hT : Used h T := fun a ha => hS a (by simp [ha])
    have skip : ∀ seen, Sim (Own h (S ++ T)) h Trees (do
        let rest ← decFieldsH e fs sm seen xs
        pure (x :: rest)) (do
        let rest ← decFields e fs sm seen vs
        pure (v :: rest)) := fun seen =>
      sim_both (R := Tree) (F := Trees) (m := pure x) (m' := pure v) (n := fun _ => decFieldsH e fs sm seen xs)
        (n' := fun _ => decFields e fs sm seen vs) (f := List.cons) (f' := List.cons)
        hd hT (Sim.pure' hx fun a ha => ⟨Or.inl ha, hSx a ha⟩)
        (fun _ _ _ _ _ => tree_frame) (fun h1 y v S1 _ hn hT1 => sim_fields e fs sm seen (trees_frame hxs hT1)
          fun a ha => Nat.lt_of_lt_of_le (hT a ha) hn) fun _ _ _ _ _ _ _ hy hz hd => Trees.cons hy hz hd
    simp only [decFieldsH, decFields]
    refine Sim.ite' (fun _ => skip _) fun _ => Sim.ite' (fun _ => Sim.panic) fun _ => Sim.read fun atEnd =>
      Sim.ite' (fun _ => skip _) fun _ => ?_
    cases hl : (if e = .borsh then t.directLib else none) with
    | none =>
      exact sim_both_lift (R := Tree) (F := Trees) hd hT (sim_field hx hSx (sim_dec e t _ hx hSx)) (fun _ _ _ _ _ => tree_frame)
        (fun _ _ _ _ hy => recordSize_lift hy)
        (n := fun _ sm => decFieldsH e fs sm (seen || m.tag.binExt) xs) (n' := fun _ sm => decFields e fs sm (seen || m.tag.binExt) vs)
        (fun h1 y v S1 sm _ hn hT1 => sim_fields e fs sm _ (trees_frame hxs hT1)
          fun a ha => Nat.lt_of_lt_of_le (hT a ha) hn) fun _ _ _ _ _ _ _ hy hz hd => Trees.cons hy hz hd
    | some p =>
      rcases p with ⟨l, p⟩
      refine Sim.weaken (W' := Own h ([] ++ T)) ?_ (own_sub fun a ha => by simpa using .inr ha)
      simp only
      rw [← bind_assoc_heap (unmarshalLibH l l.zeroH) (boxed p)]
      exact sim_both (S := []) (R := fun h y v S => Tree h y (if p then .ptr (some v) else v) S) (F := Trees) (by simp) hT
        (Sim.boxed (tree_libZero l)) (fun _ _ _ _ _ => tree_frame)
        (n := fun _ => decFieldsH e fs sm (seen || m.tag.binExt) xs) (n' := fun _ => decFields e fs sm (seen || m.tag.binExt) vs)
        (f := List.cons) (f' := fun v w => (if p then .ptr (some v) else v) :: w)
        (fun h1 y v S1 _ hn hT1 => sim_fields e fs sm _ (trees_frame hxs hT1)
          fun a ha => Nat.lt_of_lt_of_le (hT a ha) hn) fun _ _ _ _ _ _ _ hy hz hd => Trees.cons hy hz hd
theorem sim_nth (e : Encoding) : ∀ (fs : Fields) (i : Nat) {xs : List HVal} {h : Heap} {vs : List Val} {S : List Nat},
    Trees h xs vs S → Used h S → Sim (Own h S) h Trees (decNthH e fs i xs) (decNth e fs i vs)
  | .nil, _, _, _, _, _, _, _ => by simp only [decNthH, decNth]; exact Sim.panic
  | .cons _ _ _, _, _, _, _, _, .nil, _ => by simp only [decNthH, decNth]; exact Sim.panic
  | .cons _ t fs, 0, _, h, _, _, .cons (x := x) (v := v) (xs := xs) (vs := vs) (S := S) (T := T) hx hxs hd, hS => by
    have hSx : Used h S := fun a ha => hS a (by simp [ha])
    have hT : Used h T := fun a ha => hS a (by simp [ha])
    simp only [decNthH, decNth]
    refine Sim.read fun _ => ?_
    exact sim_both (R := Tree) (F := Trees) (n := fun _ => pure xs) (n' := fun _ => pure vs) (f := List.cons) (f' := List.cons)
      hd hT (sim_dec e t {} hx hSx) (fun _ _ _ _ _ => tree_frame)
      (fun h1 y v S1 _ hn hT1 => Sim.pure' (trees_frame hxs hT1) fun a ha => ⟨Or.inl ha, Nat.lt_of_lt_of_le (hT a ha) hn⟩)
      fun _ _ _ _ _ _ _ hy hz hd => Trees.cons hy hz hd
  | .cons _ t fs, i + 1, _, h, _, _, .cons (x := x) (v := v) (xs := xs) (vs := vs) (S := S) (T := T) hx hxs hd, hS => by
    have hSx : Used h S := fun a ha => hS a (by simp [ha])
    have hT : Used h T := fun a ha => hS a (by simp [ha])
    simp only [decNthH, decNth]
    exact sim_both (R := Tree) (F := Trees) (m := pure x) (m' := pure v) (n := fun _ => decNthH e fs i xs) (n' := fun _ => decNth e fs i vs)
      (f := List.cons) (f' := List.cons)
      hd hT (Sim.pure' hx fun a ha => ⟨Or.inl ha, hSx a ha⟩) (fun _ _ _ _ _ => tree_frame)
      (fun h1 y v S1 _ hn hT1 => sim_nth e fs i (trees_frame hxs hT1) fun a ha => Nat.lt_of_lt_of_le (hT a ha) hn)
      fun _ _ _ _ _ _ _ hy hz hd => Trees.cons hy hz hd
end

end Verif.OnHeap
