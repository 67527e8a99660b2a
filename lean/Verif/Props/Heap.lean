import Verif.Proofs.HeapFrame
import Verif.Proofs.HeapDecode
/-!
# C105: Decode assigns to the variable and to what it points to, and to nothing else
-/
namespace Verif.Props
open Spec OnHeap

theorem Follows_snoc {h : Heap} {x y : HVal} {a b : Nat} (hf : Follows h x a) (hc : h.cell a = .one y) (hb : b ∈ pointers y) :
    Follows h x b := by
  induction hf with
  | here ha => exact .next ha hc (.here hb)
  | next ha hy _ ih => exact .next ha hy (ih hc)

/-- `Decode(&x)`, for the variable `x` at address `a`, changes only `x`, the variables that its pointers lead to and memory that
was not in use; this also holds when it fails or panics. -/
theorem C105_elsewhere (t : Ty) (a : Nat) (s : HDec) (hclean : Clean s.heap) {b : Nat} (hb : b < s.heap.next) (hba : b ≠ a)
    (hf : ¬ Follows s.heap (s.heap.var a) b) : (decodeAt t a s).2.heap.cell b = s.heap.cell b := by
  refine (inside_decodeAt (P := fun b => b = a ∨ Follows s.heap (s.heap.var a) b ∨ s.heap.next ≤ b) (.inl rfl) s
    ⟨?_, fun b hb => .inr (.inr hb)⟩).2.1 b ?_
  · rintro c (rfl | hc | hc) x hx d hd
    · exact .inr (.inl (.here (by simpa [Heap.var, hx] using hd)))
    · exact .inr (.inl (Follows_snoc hc hx hd))
    · rw [hclean c hc] at hx
      cases hx
      simp [pointers] at hd
  · rintro (h | h | h)
    · exact hba h
    · exact hf h
    · omega

/-- Slices and maps are replaced, not overwritten: whoever holds the slice or the map that was in the variable before still sees the
old content.  (Pointers are assumed to lead to variables, as Go's types ensure.) -/
theorem C105_old_content (t : Ty) (a : Nat) (s : HDec) (hclean : Clean s.heap)
    (htyped : ∀ b, b = a ∨ Follows s.heap (s.heap.var a) b → ∃ x, s.heap.cell b = .one x) {b : Nat} :
    (∀ xs, s.heap.cell b = .many xs → (decodeAt t a s).2.heap.cell b = .many xs) ∧
    (∀ m, s.heap.cell b = .table m → (decodeAt t a s).2.heap.cell b = .table m) := by
  have key : (∀ x, s.heap.cell b ≠ .one x) → (decodeAt t a s).2.heap.cell b = s.heap.cell b := by
    intro h
    refine C105_elsewhere t a s hclean ?_ ?_ ?_
    · rcases Nat.lt_or_ge b s.heap.next with h1 | h1
      · exact h1
      · exact absurd (hclean b h1) (h _)
    · intro h1
      obtain ⟨x, hx⟩ := htyped b (.inl h1)
      exact h x hx
    · intro h1
      obtain ⟨x, hx⟩ := htyped b (.inr h1)
      exact h x hx
  exact ⟨fun xs h => (key fun x hx => by rw [h] at hx; cases hx).trans h,
    fun m h => (key fun x hx => by rw [h] at hx; cases hx).trans h⟩

/-- A pointer that is not nil stays the same pointer: the value is decoded into the variable it leads to.  A nil pointer gets a new
variable. -/
theorem C105_same_pointer (e : Encoding) (t : Ty) (o : Opt) (x y : HVal) (s s' : HDec) (h : decH e (.ptr t) o x s = (.ok y, s')) :
    (∀ a, x = .ptr (some a) → y = x) ∧ (x = .ptr none → y = .ptr (some s.heap.next)) := by
  have key : ∀ (a : Nat) (s0 : HDec), ((do
      let old ← loadVar a
      let y ← decH e t o old
      storeVar a y
      pure (.ptr (some a)) : HM HVal) s0) = (.ok y, s') → y = .ptr (some a) := by
    intro a s0 h
    simp only [M.bind_apply, loadVar] at h
    rcases hr : decH e t o (s0.heap.var a) s0 with ⟨_ | _ | _, s1⟩ <;> rw [hr] at h
    · simp only [storeVar, M.pure_apply, Prod.mk.injEq, Res.ok.injEq] at h
      exact h.1.symm
    · cases h
    · cases h
  simp only [decH] at h
  constructor
  · rintro a rfl
    exact key a s h
  · rintro rfl
    exact key s.heap.next _ h

/-- If no variable is reached on two ways, `Decode` does to the heap what it does to the tree it shows: same outcome, same decoder, and
the variable shows the value decoded.  It consists of memory it had before and of new memory, again without sharing; so the next call
finds the same situation. -/
theorem C105_unshared (t : Ty) (a : Nat) (v : Val) (S : List Nat) (d : Dec) (h : Heap)
    (hx : Tree h (.ptr (some a)) (.ptr (some v)) S) (hS : Used h S) :
    (decodeAt t a ⟨d, h⟩).2.dec = (decode t v d).2 ∧
    (∀ b, b < h.next → b ∉ S → (decodeAt t a ⟨d, h⟩).2.heap.cell b = h.cell b) ∧
    match (decode t v d).1 with
    | .ok w => (decodeAt t a ⟨d, h⟩).1 = .ok () ∧ ∃ S', Tree (decodeAt t a ⟨d, h⟩).2.heap (.ptr (some a)) (.ptr (some w)) S' ∧
        Used (decodeAt t a ⟨d, h⟩).2.heap S' ∧ ∀ b ∈ S', b ∈ S ∨ h.next ≤ b
    | .err x => (decodeAt t a ⟨d, h⟩).1 = .err x
    | .panic => (decodeAt t a ⟨d, h⟩).1 = .panic := by
  by_cases he : d.enc = .other
  · have h1 : decodeAt t a ⟨d, h⟩ = (.panic, ⟨d, h⟩) := by simp [decodeAt, onDec, M.bind_apply, M.get, he]
    have h2 : decode t v d = (.panic, d) := by simp [decode, M.bind_apply, M.get, he]
    rw [h1, h2]
    exact ⟨rfl, fun _ _ _ => rfl, rfl⟩
  · have hsim := sim_through (t := t) hx hS (f := fun x => decH d.enc t {} x) (m := decCore d.enc t {} v)
      (fun h' x' S' ht hS' => sim_dec d.enc t {} ht hS') (setCurD .le d).2
    have h2 : decode t v d = decCore d.enc t {} v (setCurD .le d).2 := by simp [decode, M.bind_apply, M.get, he, setCurD]
    have h3 : ((decH d.enc (.ptr t) {} (.ptr (some a))) ⟨(setCurD .le d).2, h⟩) =
        ((decodeAt t a >>= fun _ => pure (.ptr (some a))) ⟨d, h⟩) := by
      simp only [decH, decodeAt, M.bind_apply, M.get, onDec, he, setCurD, M.modify, loadVar, target, M.pure_apply, if_false]
      rcases decH d.enc t {} (h.var a) _ with ⟨_ | _ | _, s1⟩ <;> rfl
    rw [h2]
    simp only [decH] at h3
    rw [h3] at hsim
    simp only [M.bind_apply] at hsim
    rcases hr : decodeAt t a ⟨d, h⟩ with ⟨r, s⟩
    rcases hr' : decCore d.enc t {} v (setCurD .le d).2 with ⟨r', d'⟩
    rw [hr, hr'] at hsim
    cases r with
    | ok u =>
      cases r' with
      | ok w =>
        obtain ⟨h4, _, h6, S', h7, h8⟩ := hsim
        exact ⟨h4, fun b hb hbS => h6 b fun ho => ho.elim hbS (by omega), rfl, S', h7, fun b hb => (h8 b hb).2,
          fun b hb => (h8 b hb).1⟩
      | err e => exact hsim.2.2.2.elim
      | panic => exact hsim.2.2.2.elim
    | err e =>
      cases r' with
      | ok w => exact hsim.2.2.2.elim
      | err e' =>
        obtain ⟨h4, _, h6, h7⟩ := hsim
        exact ⟨h4, fun b hb hbS => h6 b fun ho => ho.elim hbS (by omega), by rw [h7]⟩
      | panic => exact hsim.2.2.2.elim
    | panic =>
      cases r' with
      | ok w => exact hsim.2.2.2.elim
      | err e' => exact hsim.2.2.2.elim
      | panic =>
        obtain ⟨h4, _, h6, _⟩ := hsim
        exact ⟨h4, fun b hb hbS => h6 b fun ho => ho.elim hbS (by omega), rfl⟩

/-- Two fields of a struct that are pointers to the same variable: the variable is decoded twice, the second time over what the first
left there, and both pointers show the second value. -/
theorem C105_shared (e : Encoding) (t : Ty) (m m' : FieldMeta) (hm : m.exported = true ∧ m.tag = {})
    (hm' : m'.exported = true ∧ m'.tag = {}) (hl : e = .borsh → t.asLib = none) (b : Nat) (v : Val) (S : List Nat) (d : Dec)
    (h : Heap) (hx : Tree h (.ptr (some b)) (.ptr (some v)) S) (hS : Used h S) (w : Val) (d' : Dec)
    (hd : (do
      setCurD .le
      let v ← decCore e t {} v
      setCurD .le
      decCore e t {} v : DM Val) d = (.ok w, d')) :
    ∃ h' S', decFieldsH e (.cons m (.ptr t) (.cons m' (.ptr t) .nil)) [] false [.ptr (some b), .ptr (some b)] ⟨d, h⟩ =
        (.ok [.ptr (some b), .ptr (some b)], ⟨d', h'⟩) ∧ Tree h' (.ptr (some b)) (.ptr (some w)) S' := by
  have hdl : (if e = .borsh then (Ty.ptr t).directLib else none) = none := by
    split
    · simp [Ty.directLib, hl ‹_›]
    · rfl
  have hlook : ∀ n, lookupSize n [] = none := fun n => rfl
  have step : ∀ (h : Heap) (v : Val) (S : List Nat) (d d1 : Dec) (v1 : Val), Tree h (.ptr (some b)) (.ptr (some v)) S → Used h S →
      decCore e t {} v (setCurD .le d).2 = (.ok v1, d1) → ∃ h1 S1,
        decH e (.ptr t) {} (.ptr (some b)) ⟨(setCurD .le d).2, h⟩ = (.ok (.ptr (some b)), ⟨d1, h1⟩) ∧
        Tree h1 (.ptr (some b)) (.ptr (some v1)) S1 ∧ Used h1 S1 := by
    intro h v S d d1 v1 hx hS hd
    have hsim := sim_dec e (.ptr t) {} hx hS (setCurD .le d).2
    have hc : decCore e (.ptr t) {} (.ptr (some v)) (setCurD .le d).2 = (.ok (.ptr (some v1)), d1) := by
      simp [decCore, Val.deref, M.bind_apply, hd]
    have hp := fun y s' => (C105_same_pointer e t {} (.ptr (some b)) y ⟨(setCurD .le d).2, h⟩ s')
    rw [hc] at hsim
    rcases hr : decH e (.ptr t) {} (.ptr (some b)) ⟨(setCurD .le d).2, h⟩ with ⟨r, s⟩
    rw [hr] at hsim
    cases r with
    | ok y =>
      have hy := (hp y s hr).1 b rfl
      subst hy
      obtain ⟨h1, _, _, S1, h2, h3⟩ := hsim
      exact ⟨s.heap, S1, by have h1 : s.dec = d1 := h1; subst h1; rfl, h2, fun a ha => (h3 a ha).2⟩
    | err e => exact hsim.2.2.2.elim
    | panic => exact hsim.2.2.2.elim
  simp only [M.bind_apply, setCurD, M.modify] at hd
  rcases hr : decCore e t {} v { d with cur := some .le } with ⟨_ | _ | _, d1⟩ <;> rw [hr] at hd
  · rename_i v1
    obtain ⟨h1, S1, e1, t1, u1⟩ := step h v S d d1 v1 hx hS hr
    obtain ⟨h2, S2, e2, t2, _⟩ := step h1 v1 S1 d1 d' w t1 u1 hd
    refine ⟨h2, S2, ?_, t2⟩
    simp only [setCurD, M.modify] at e1 e2
    simp [decFieldsH, M.bind_apply, hm, hm', hdl, extensionEnds, onDec, decFieldH, fieldOpt, hlook, recordSize, setCurD, M.modify,
      e1, e2]
  · cases hd
  · cases hd

/-- An optional field that is absent becomes a nil pointer; the variable it led to keeps its content. -/
theorem C105_absent (e : Encoding) (t : Ty) (o : Opt) (b : Nat) (core : HM HVal) (s : HDec) (d' : Dec) (ho : o.optional = true)
    (hp : ∀ u, t ≠ .ptr u) (hr : readFlag e (setCurD o.order s.dec).2 = (.ok false, d')) :
    decFieldH e (.ptr t) o (.ptr (some b)) core s = (.ok (.ptr none), ⟨d', s.heap⟩) := by
  have hz : absentValH (.ptr t) (.ptr (some b)) = pure (.ptr none) := by
    cases t <;> first | rfl | exact absurd rfl (hp _)
  have hl : (Ty.ptr t).asLib = none := by simp [Ty.asLib]
  simp only [setCurD, M.modify] at hr
  simp [decFieldH, onDec, M.bind_apply, ho, hl, setCurD, M.modify, hr, hz]

/-- In Borsh, a field that is a pointer to a library type does not keep its pointer: it gets a new variable, and the variable it led to
keeps its content (decoder_borsh.go:424-431).  In Bin and CompactU16 it is decoded in place, `C105_same_pointer`. -/
theorem C105_borsh_pointer (l : Lib) (m : FieldMeta) (hm : m.exported = true ∧ m.tag = {}) (b : Nat) (s s' : HDec) (ys : List HVal)
    (hr : decFieldsH .borsh (.cons m (.ptr (.lib l)) .nil) [] false [.ptr (some b)] s = (.ok ys, s')) :
    ys = [.ptr (some s.heap.next)] ∧ ∀ a, a < s.heap.next → s'.heap.cell a = s.heap.cell a := by
  simp only [decFieldsH, M.bind_apply, hm, extensionEnds, onDec, Ty.directLib, Ty.asLib, boxed, newCell, M.pure_apply, if_true,
    Bool.not_true, Bool.or_false, Bool.false_eq_true, if_false, Bool.not_false, Bool.and_false] at hr
  have hk : ∀ y s1, unmarshalLibH l l.zeroH ⟨s.dec, s.heap⟩ = (.ok y, s1) → s1.heap = s.heap := by
    intro y s1 h
    unfold unmarshalLibH at h
    split at h
    · cases h; rfl
    · simp only [M.bind_apply, onDec] at h
      rcases hu : unmarshalLib _ _ s.dec with ⟨_ | _ | _, d1⟩ <;> rw [hu] at h <;> cases h
      rfl
  rcases hu : unmarshalLibH l l.zeroH ⟨s.dec, s.heap⟩ with ⟨_ | _ | _, s1⟩ <;> rw [hu] at hr
  · have := hk _ _ hu
    simp only [Prod.mk.injEq, Res.ok.injEq] at hr
    obtain ⟨rfl, rfl⟩ := hr
    rw [this]
    refine ⟨rfl, fun a ha => ?_⟩
    simp only [Heap.alloc]
    rw [if_neg]
    omega
  · cases hr
  · cases hr

/-! ### Examples

A variable `x` of type `struct { A, B *uint8 }` at address 0. -/

namespace HeapExample

def pairTy : Ty := .struct (.cons { name := [65] } (.ptr (.uint .w8 false)) (.cons { name := [66] } (.ptr (.uint .w8 false)) .nil))

/-- `n` used cells. -/
def heapOf (cs : List Cell) : Heap := { cell := fun a => cs.getD a (.one (.leaf .nil)), next := cs.length }

/-- `A` and `B` lead to the variable at address 1. -/
def shared : Heap := heapOf [.one (.struct [.ptr (some 1), .ptr (some 1)]), .one (.leaf (.uint 9))]

/-- `A` leads to the variable at address 1, `B` to the one at 2. -/
def apart : Heap := heapOf [.one (.struct [.ptr (some 1), .ptr (some 2)]), .one (.leaf (.uint 9)), .one (.leaf (.uint 8))]

def input : Dec := { data := [1, 2], pos := 0, cur := none, enc := .bin }

end HeapExample
open HeapExample

/-- Without the condition on sharing `C105_unshared` is false: the tree gets 1 and 2, the two pointers to one variable show 2 and 2. -/
theorem C105_sharing_matters :
    decode pairTy (.struct [.ptr (some (.uint 9)), .ptr (some (.uint 9))]) input =
      (.ok (.struct [.ptr (some (.uint 1)), .ptr (some (.uint 2))]), { input with pos := 2, cur := some .le }) ∧
    (decodeAt pairTy 0 ⟨input, shared⟩).1 = .ok () ∧
    (decodeAt pairTy 0 ⟨input, shared⟩).2.heap.cell 0 = .one (.struct [.ptr (some 1), .ptr (some 1)]) ∧
    (decodeAt pairTy 0 ⟨input, shared⟩).2.heap.cell 1 = .one (.leaf (.uint 2)) := by
  refine ⟨by rfl, by rfl, by rfl, by rfl⟩

/-- The variables led to are overwritten in place. -/
example : (decodeAt pairTy 0 ⟨input, apart⟩).2.heap.cell 1 = .one (.leaf (.uint 1)) ∧
    (decodeAt pairTy 0 ⟨input, apart⟩).2.heap.cell 2 = .one (.leaf (.uint 2)) := ⟨by rfl, by rfl⟩

/-- The condition of `C105_unshared` holds for the second heap. -/
example : Tree apart (.ptr (some 0)) (.ptr (some (.struct [.ptr (some (.uint 9)), .ptr (some (.uint 8))]))) [0, 1, 2] ∧
    Used apart [0, 1, 2] :=
  ⟨.ptr (S := [1, 2]) (by rfl) (.struct (.cons (S := [1]) (T := [2]) (.ptr (by rfl) (.leaf trivial) (by simp))
    (.cons (S := [2]) (T := []) (.ptr (by rfl) (.leaf trivial) (by simp)) .nil (by simp)) (by simp))) (by simp),
    by simp [Used, apart, heapOf]⟩

/-- A variable with a slice: the slice is replaced, the array behind the old one (address 1) is as before. -/
example : let h := heapOf [.one (.struct [.seq (some 1)]), .many [.leaf (.bool true)]]
    let d : Dec := { data := [1, 0], pos := 0, cur := none, enc := .bin }
    let t : Ty := .struct (.cons { name := [65] } (.slice .bool) .nil)
    (decodeAt t 0 ⟨d, h⟩).1 = .ok () ∧
    (decodeAt t 0 ⟨d, h⟩).2.heap.cell 0 = .one (.struct [.seq (some 2)]) ∧
    (decodeAt t 0 ⟨d, h⟩).2.heap.cell 1 = .many [.leaf (.bool true)] ∧
    (decodeAt t 0 ⟨d, h⟩).2.heap.cell 2 = .many [.leaf (.bool false)] := ⟨by rfl, by rfl, by rfl, by rfl⟩

/-- The conditions of `C105_elsewhere` and `C105_old_content` hold there. -/
example : let h := heapOf [.one (.struct [.seq (some 1)]), .many [.leaf (.bool true)]]
    Clean h ∧ (∀ b, b = 0 ∨ Follows h (h.var 0) b → ∃ x, h.cell b = .one x) ∧ 1 < h.next ∧ ¬ Follows h (h.var 0) 1 := by
  refine ⟨?_, ?_, by decide, ?_⟩
  · intro b hb
    simp only [heapOf, List.length_cons, List.length_nil] at hb ⊢
    have : [Cell.one (.struct [.seq (some 1)]), .many [.leaf (.bool true)]][b]? = none := List.getElem?_eq_none (by simpa using hb)
    simp [List.getD, this]
  · rintro b (rfl | hb)
    · exact ⟨_, rfl⟩
    · cases hb with
      | here ha => simp [Heap.var, heapOf, pointers, pointersAll] at ha
      | next ha _ _ => simp [Heap.var, heapOf, pointers, pointersAll] at ha
  · intro hb
    cases hb with
    | here ha => simp [Heap.var, heapOf, pointers, pointersAll] at ha
    | next ha _ _ => simp [Heap.var, heapOf, pointers, pointersAll] at ha

/-- An array of pointers is followed element by element; a nil pointer gets a new variable (address 2). -/
example : let h := heapOf [.one (.arr [.ptr (some 1), .ptr none]), .one (.leaf (.uint 9))]
    let t : Ty := .array 2 (.ptr (.uint .w8 false))
    (decodeAt t 0 ⟨input, h⟩).1 = .ok () ∧
    (decodeAt t 0 ⟨input, h⟩).2.heap.cell 0 = .one (.arr [.ptr (some 1), .ptr (some 2)]) ∧
    (decodeAt t 0 ⟨input, h⟩).2.heap.cell 1 = .one (.leaf (.uint 1)) ∧
    (decodeAt t 0 ⟨input, h⟩).2.heap.cell 2 = .one (.leaf (.uint 2)) := ⟨by rfl, by rfl, by rfl, by rfl⟩

/-- A map is replaced; its old table (address 1) stays. -/
example : let h := heapOf [.one (.map (some 1)), .table [(.leaf (.uint 7), .leaf (.uint 7))]]
    let d : Dec := { data := [1, 1, 2], pos := 0, cur := none, enc := .bin }
    let t : Ty := .map (.uint .w8 false) (.uint .w8 false)
    (decodeAt t 0 ⟨d, h⟩).1 = .ok () ∧
    (decodeAt t 0 ⟨d, h⟩).2.heap.cell 0 = .one (.map (some 2)) ∧
    (decodeAt t 0 ⟨d, h⟩).2.heap.cell 1 = .table [(.leaf (.uint 7), .leaf (.uint 7))] ∧
    (decodeAt t 0 ⟨d, h⟩).2.heap.cell 2 = .table [(.leaf (.uint 1), .leaf (.uint 2))] := ⟨by rfl, by rfl, by rfl, by rfl⟩

/-- `C105_absent` and `C105_borsh_pointer` are not about nothing. -/
example : (decFieldH .borsh (.ptr (.uint .w8 false)) { optional := true } (.ptr (some 1)) M.panic
    ⟨{ input with data := [0] }, shared⟩).1 = .ok (.ptr none) := by rfl

example : (decFieldsH .borsh (.cons { name := [65] } (.ptr (.lib .bool)) .nil) [] false [.ptr (some 1)]
    ⟨{ input with data := [1], enc := .borsh }, shared⟩).1 = .ok [.ptr (some 2)] := by rfl

end Verif.Props
