import Verif.Spec.Heap
/-!
# Decoding assigns to variables reached through pointers only
-/
namespace Verif.OnHeap
open Spec

/-- `P` contains what the pointers in the variables of `P` lead to, and all unused addresses. -/
structure Closed (P : Nat → Prop) (h : Heap) : Prop where
  step : ∀ a, P a → ∀ x, h.cell a = .one x → ∀ b ∈ pointers x, P b
  fresh : ∀ b, h.next ≤ b → P b

/-- `m` assigns inside `P` only. -/
def Inside {α : Type} (P : Nat → Prop) (good : α → Prop) (m : HM α) : Prop :=
  ∀ s : HDec, Closed P s.heap →
    Closed P (m s).2.heap ∧ (∀ b, ¬ P b → (m s).2.heap.cell b = s.heap.cell b) ∧ ∀ a, (m s).1 = .ok a → good a

/-- The pointers in `x` lead into `P`. -/
def Into (P : Nat → Prop) (x : HVal) : Prop := ∀ a ∈ pointers x, P a

def IntoAll (P : Nat → Prop) (xs : List HVal) : Prop := ∀ x ∈ xs, Into P x

variable {P : Nat → Prop}

theorem pointersAll_mem : ∀ {xs : List HVal} {a : Nat}, a ∈ pointersAll xs ↔ ∃ x ∈ xs, a ∈ pointers x
  | [], a => by simp [pointersAll]
  | x :: xs, a => by simp [pointersAll, pointersAll_mem (xs := xs)]

theorem into_arr {xs : List HVal} : Into P (.arr xs) ↔ IntoAll P xs := by
  simp only [Into, pointers, pointersAll_mem, IntoAll]
  exact ⟨fun h x hx a ha => h a ⟨x, hx, ha⟩, fun h a ⟨x, hx, ha⟩ => h x hx a ha⟩

theorem into_struct {xs : List HVal} : Into P (.struct xs) ↔ IntoAll P xs := by
  simp only [Into, pointers, pointersAll_mem, IntoAll]
  exact ⟨fun h x hx a ha => h a ⟨x, hx, ha⟩, fun h a ⟨x, hx, ha⟩ => h x hx a ha⟩

theorem into_leaf {v : Val} : Into P (.leaf v) := by simp [Into, pointers]
theorem into_seq {a : Option Nat} : Into P (.seq a) := by simp [Into, pointers]
theorem into_map {a : Option Nat} : Into P (.map a) := by simp [Into, pointers]
theorem into_ptr {a : Nat} : Into P (.ptr (some a)) ↔ P a := by simp [Into, pointers]
theorem into_nil : Into P (.ptr none) := by simp [Into, pointers]

theorem intoAll_cons {x : HVal} {xs : List HVal} : IntoAll P (x :: xs) ↔ Into P x ∧ IntoAll P xs := by
  simp [IntoAll]

theorem into_libZero (l : Lib) : Into P l.zeroH := by cases l <;> simp [Lib.zeroH, Into, pointers, pointersAll]

mutual
theorem into_zero : ∀ t : Ty, Into P t.zeroH
  | .lib l => by simp only [Ty.zeroH]; exact into_libZero l
  | .ptr _ => by simp only [Ty.zeroH]; exact into_nil
  | .slice _ => by simp only [Ty.zeroH]; exact into_seq
  | .array n t => by
    simp only [Ty.zeroH, into_arr]
    intro x hx
    rw [List.mem_replicate] at hx
    exact hx.2 ▸ into_zero t
  | .map _ _ => by simp only [Ty.zeroH]; exact into_map
  | .struct fs => by simp only [Ty.zeroH, into_struct]; exact into_zeros fs
  | .bool | .uint _ _ | .int _ _ | .borshEnum | .f32 | .f64 | .str | .iface | .plainInt | .plainUint | .other => by
    simp only [Ty.zeroH]; exact into_leaf
theorem into_zeros : ∀ fs : Fields, IntoAll P fs.zerosH
  | .nil => by simp [Fields.zerosH, IntoAll]
  | .cons _ t fs => by simp only [Fields.zerosH, intoAll_cons]; exact ⟨into_zero t, into_zeros fs⟩
end

namespace Inside
variable {α β : Type} {good : α → Prop} {better : β → Prop}

theorem pure' {a : α} (h : good a) : Inside P good (pure a : HM α) := fun s hc => by
  refine ⟨hc, fun _ _ => rfl, fun b hb => ?_⟩
  cases hb
  exact h

theorem err {e : Err} : Inside P good (M.err e : HM α) := fun _ hc => ⟨hc, fun _ _ => rfl, fun _ hb => nomatch hb⟩

theorem panic : Inside P good (M.panic : HM α) := fun _ hc => ⟨hc, fun _ _ => rfl, fun _ hb => nomatch hb⟩

theorem bind {m : HM α} {f : α → HM β} (hm : Inside P good m) (hf : ∀ a, good a → Inside P better (f a)) :
    Inside P better (m >>= f) := fun s hc => by
  have h := hm s hc
  simp only [M.bind_apply]
  rcases hr : m s with ⟨_ | _ | _, s'⟩
  · rw [hr] at h
    have h2 := hf _ (h.2.2 _ rfl) s' h.1
    exact ⟨h2.1, fun b hb => (h2.2.1 b hb).trans (h.2.1 b hb), h2.2.2⟩
  · rw [hr] at h
    exact ⟨h.1, h.2.1, fun _ hb => nomatch hb⟩
  · rw [hr] at h
    exact ⟨h.1, h.2.1, fun _ hb => nomatch hb⟩

theorem onDec {m : DM α} : Inside P (fun _ => True) (onDec m) := fun _ hc => ⟨hc, fun _ _ => rfl, fun _ _ => trivial⟩

theorem lift {r : Res α} : Inside P (fun _ => True) (M.lift r : HM α) := fun _ hc => ⟨hc, fun _ _ => rfl, fun _ _ => trivial⟩

theorem newOne {x : HVal} (hx : Into P x) : Inside P P (newCell (.one x)) := fun s hc => by
  refine ⟨⟨fun a ha y hy => ?_, fun b hb => hc.fresh b ?_⟩, fun b hb => ?_, fun a ha => ?_⟩
  · simp only [newCell, Heap.alloc] at hy
    split at hy
    · cases hy; exact hx
    · exact hc.step a ha y hy
  · simp only [newCell, Heap.alloc] at hb
    omega
  · simp only [newCell, Heap.alloc]
    rw [if_neg]
    rintro rfl
    exact hb (hc.fresh _ (Nat.le_refl _))
  · cases ha
    exact hc.fresh _ (Nat.le_refl _)

theorem newCell {c : Cell} (hx : ∀ x, c ≠ .one x) : Inside P (fun _ => True) (newCell c) := fun s hc => by
  refine ⟨⟨fun a ha y hy => ?_, fun b hb => hc.fresh b ?_⟩, fun b hb => ?_, fun _ _ => trivial⟩
  · simp only [Verif.newCell, Heap.alloc] at hy
    split at hy
    · exact absurd hy (hx y)
    · exact hc.step a ha y hy
  · simp only [Verif.newCell, Heap.alloc] at hb
    omega
  · simp only [Verif.newCell, Heap.alloc]
    rw [if_neg]
    rintro rfl
    exact hb (hc.fresh _ (Nat.le_refl _))

theorem loadVar {a : Nat} (ha : P a) : Inside P (Into P) (loadVar a) := fun s hc => by
  refine ⟨hc, fun _ _ => rfl, fun x hx => ?_⟩
  simp only [Verif.loadVar, Heap.var] at hx
  cases hx
  cases hh : s.heap.cell a with
  | one y => exact hc.step a ha y hh
  | many _ => exact into_leaf
  | table _ => exact into_leaf

theorem storeVar {a : Nat} {x : HVal} (ha : P a) (hx : Into P x) : Inside P (fun _ => True) (storeVar a x) := fun s hc => by
  refine ⟨⟨fun b hb y hy => ?_, hc.fresh⟩, fun b hb => ?_, fun _ _ => trivial⟩
  · simp only [Verif.storeVar, Heap.set] at hy
    split at hy
    · cases hy; exact hx
    · exact hc.step b hb y hy
  · simp only [Verif.storeVar, Heap.set]
    rw [if_neg]
    rintro rfl
    exact hb ha

theorem weaken {good' : α → Prop} {m : HM α} (hm : Inside P good m) (h : ∀ a, good a → good' a) : Inside P good' m :=
  fun s hc => ⟨(hm s hc).1, (hm s hc).2.1, fun a ha => h a ((hm s hc).2.2 a ha)⟩

theorem repeatM' {m : HM α} (hm : Inside P good m) : ∀ n, Inside P (fun xs => ∀ x ∈ xs, good x) (repeatM m n)
  | 0 => pure' (by simp)
  | n + 1 => bind hm fun a ha => bind (repeatM' hm n) fun as has => pure' (by simpa using ⟨ha, has⟩)

theorem traverseM' {γ : Type} {f : γ → HM α} {ok : γ → Prop} (hf : ∀ c, ok c → Inside P good (f c)) :
    ∀ cs : List γ, (∀ c ∈ cs, ok c) → Inside P (fun xs => ∀ x ∈ xs, good x) (traverseM f cs)
  | [], _ => pure' (by simp)
  | c :: cs, h => bind (hf c (h c (by simp))) fun a ha =>
    bind (traverseM' hf cs fun c hc => h c (by simp [hc])) fun as has => pure' (by simpa using ⟨ha, has⟩)

theorem ite' {p : Prop} [Decidable p] {a b : HM α} (ha : p → Inside P good a) (hb : ¬ p → Inside P good b) :
    Inside P good (if p then a else b) := by
  split
  · exact ha ‹_›
  · exact hb ‹_›

end Inside


theorem inside_target {t : Ty} {x : HVal} (hx : Into P x) : Inside P P (target t x) := by
  unfold target
  split
  · exact Inside.pure' (into_ptr.1 hx)
  · exact Inside.newOne (into_zero t)

theorem inside_absentVal : ∀ (t : Ty) (x : HVal), Into P x → Inside P (Into P) (absentValH t x)
  | .ptr t, x, hx => by
    unfold absentValH
    split
    · rename_i heq
      cases heq
      rename_i t a
      have ha := into_ptr.1 hx
      exact Inside.bind (Inside.loadVar ha) fun y hy => Inside.bind (inside_absentVal (.ptr t) y hy) fun z hz =>
        Inside.bind (Inside.storeVar ha hz) fun _ _ => Inside.pure' hx
    · exact Inside.pure' (into_zero _)
  | .lib _, _, _ | .slice _, _, _ | .array _ _, _, _ | .map _ _, _, _ | .struct _, _, _ | .bool, _, _ | .uint _ _, _, _
  | .int _ _, _, _ | .borshEnum, _, _ | .f32, _, _ | .f64, _, _ | .str, _, _ | .iface, _, _ | .plainInt, _, _
  | .plainUint, _, _ | .other, _, _ => by
    simp only [absentValH]
    exact Inside.pure' (into_zero _)

theorem inside_absentBase : ∀ (t : Ty) (x : HVal), Into P x → Inside P (Into P) (absentBaseH t x)
  | .ptr t, x, hx => by
    rw [absentBaseH]
    exact Inside.bind (inside_target hx) fun a ha => Inside.bind (Inside.loadVar ha) fun y hy => Inside.bind (inside_absentBase t y hy) fun z hz =>
      Inside.bind (Inside.storeVar ha hz) fun _ _ => Inside.pure' (into_ptr.2 ha)
  | .lib _, _, _ | .slice _, _, _ | .array _ _, _, _ | .map _ _, _, _ | .struct _, _, _ | .bool, _, _ | .uint _ _, _, _
  | .int _ _, _, _ | .borshEnum, _, _ | .f32, _, _ | .f64, _, _ | .str, _, _ | .iface, _, _ | .plainInt, _, _
  | .plainUint, _, _ | .other, _, _ => by
    simp only [absentBaseH]
    exact Inside.pure' (into_zero _)

theorem inside_field {e : Encoding} {t : Ty} {o : Opt} {x : HVal} {core : HM HVal} (hx : Into P x)
    (hc : Inside P (Into P) core) : Inside P (Into P) (decFieldH e t o x core) := by
  unfold decFieldH
  refine Inside.bind Inside.onDec fun _ _ => Inside.ite' (fun _ => Inside.ite' (fun _ => Inside.panic) fun _ => Inside.bind Inside.onDec fun p _ => Inside.ite' (fun _ => Inside.ite' (fun _ =>
    Inside.ite' (fun _ => Inside.panic) fun _ => Inside.bind Inside.onDec fun q _ => Inside.ite' (fun _ => hc) fun _ => inside_absentBase t x hx) fun _ => hc)
    fun _ => inside_absentVal t x hx) fun _ => Inside.ite' (fun _ => Inside.ite' (fun _ => Inside.panic) fun _ => Inside.bind Inside.onDec fun q _ =>
    Inside.ite' (fun _ => hc) fun _ => inside_absentVal t x hx) fun _ => hc

theorem inside_boxed {p : Bool} {x : HVal} (hx : Into P x) : Inside P (Into P) (boxed p x) := by
  unfold boxed
  exact Inside.ite' (fun _ => Inside.bind (Inside.newOne hx) fun a ha => Inside.pure' (into_ptr.2 ha)) fun _ => Inside.pure' hx

theorem inside_struct {e : Encoding} {fs : Fields} {a : HM (List HVal)} {b : Nat → HM (List HVal)}
    (ha : Inside P (IntoAll P) a) (hb : ∀ i, Inside P (IntoAll P) (b i)) : Inside P (Into P) (decStructH e fs a b) := by
  unfold decStructH
  refine Inside.ite' (fun _ => Inside.bind Inside.onDec fun tag _ => Inside.ite' (fun _ => Inside.err) fun _ => Inside.bind (hb _) fun vs hvs => Inside.pure' ?_) fun _ =>
    Inside.bind ha fun vs hvs => Inside.pure' (into_struct.2 hvs)
  rw [into_struct, intoAll_cons]
  exact ⟨into_leaf, fun x hx => hvs x (List.mem_of_mem_tail hx)⟩

theorem inside_lib {l : Lib} {x : HVal} (hx : Into P x) : Inside P (Into P) (unmarshalLibH l x) := by
  unfold unmarshalLibH
  split
  · exact Inside.pure' hx
  · exact Inside.bind Inside.onDec fun v _ => Inside.pure' into_leaf

theorem into_elems {n : Nat} {t : Ty} {x : HVal} (hx : Into P x) : IntoAll P (x.elems n t) := by
  unfold HVal.elems
  split
  · exact into_arr.1 hx
  · intro y hy
    rw [List.mem_replicate] at hy
    exact hy.2 ▸ into_zero t

theorem into_fields {fs : Fields} {x : HVal} (hx : Into P x) : IntoAll P (x.fields fs) := by
  unfold HVal.fields
  split
  · exact into_struct.1 hx
  · exact into_zeros fs

theorem inside_recordSize {m : FieldMeta} {t : Ty} {v : Val} {sm : List (Bytes × Int)} :
    Inside P (fun _ => True) (recordSize m t v sm : HM (List (Bytes × Int))) := by
  unfold recordSize
  exact Inside.ite' (fun _ => Inside.pure' trivial) fun _ => Inside.bind Inside.lift fun _ _ => Inside.pure' trivial

mutual
theorem inside_dec (e : Encoding) : ∀ (t : Ty) (o : Opt) (x : HVal), Into P x → Inside P (Into P) (decH e t o x)
  | .lib l, _, x, hx => by simp only [decH]; exact inside_lib hx
  | .ptr t, o, x, hx => by
    simp only [decH]
    exact Inside.bind (inside_target hx) fun a ha => Inside.bind (Inside.loadVar ha) fun y hy => Inside.bind (inside_dec e t o y hy) fun z hz =>
      Inside.bind (Inside.storeVar ha hz) fun _ _ => Inside.pure' (into_ptr.2 ha)
  | .slice t, o, x, hx => by
    simp only [decH]
    refine Inside.bind Inside.onDec fun l _ => Inside.ite' (fun _ => Inside.pure' hx) fun _ => Inside.bind Inside.onDec fun d _ => Inside.ite' (fun _ => Inside.err) fun _ => ?_
    cases t.uintKind with
    | some w => exact Inside.bind Inside.onDec fun xs _ => Inside.bind (Inside.newCell fun _ h => nomatch h) fun a _ => Inside.pure' into_seq
    | none =>
      exact Inside.bind (Inside.repeatM' (Inside.bind Inside.onDec fun _ _ => inside_dec e t {} _ (into_zero t)) _) fun xs _ =>
        Inside.bind (Inside.newCell fun _ h => nomatch h) fun a _ => Inside.pure' into_seq
  | .array n t, _, x, hx => by
    simp only [decH]
    cases t.uintKind with
    | some w =>
      refine Inside.bind Inside.onDec fun xs _ => Inside.pure' (into_arr.2 fun y hy => ?_)
      rw [List.mem_map] at hy
      obtain ⟨v, _, rfl⟩ := hy
      exact into_leaf
    | none =>
      exact Inside.bind (Inside.traverseM' (ok := Into P) (fun y hy => Inside.bind Inside.onDec fun _ _ => inside_dec e t {} y hy) _ (into_elems hx))
        fun xs hxs => Inside.pure' (into_arr.2 hxs)
  | .map k t, _, x, hx => by
    simp only [decH]
    exact Inside.bind Inside.onDec fun l _ => Inside.ite' (fun _ => Inside.pure' hx) fun _ => Inside.bind (good := fun _ => True) (Inside.weaken (Inside.repeatM' (good := fun _ => True)
      (Inside.bind Inside.onDec fun _ _ => Inside.bind (inside_dec e k {} _ (into_zero k)) fun _ _ => Inside.bind Inside.onDec fun _ _ =>
        Inside.bind (inside_dec e t {} _ (into_zero t)) fun _ _ => Inside.pure' trivial) _) fun _ _ => trivial) fun xs _ =>
        Inside.bind (Inside.newCell fun _ h => nomatch h) fun a _ => Inside.pure' into_map
  | .struct fs, _, x, hx => by
    simp only [decH]
    exact inside_struct (inside_fields e fs _ _ _ (into_fields hx)) fun i => inside_nth e fs i _ (into_fields hx)
  | .iface, _, x, hx => by simp only [decH]; exact Inside.pure' hx
  | .bool, _, _, _ | .uint _ _, _, _, _ | .int _ _, _, _, _ | .borshEnum, _, _, _ | .f32, _, _, _ | .f64, _, _, _
  | .str, _, _, _ => by simp only [decH]; exact Inside.bind Inside.onDec fun v _ => Inside.pure' into_leaf
  | .plainInt, _, _, _ | .plainUint, _, _, _ | .other, _, _, _ => by simp only [decH]; exact Inside.err
theorem inside_fields (e : Encoding) : ∀ (fs : Fields) (sm : List (Bytes × Int)) (seen : Bool) (xs : List HVal),
    IntoAll P xs → Inside P (IntoAll P) (decFieldsH e fs sm seen xs)
  | .nil, _, _, _, _ => by simp only [decFieldsH]; exact Inside.pure' (by simp [IntoAll])
  | .cons _ _ _, _, _, [], _ => by simp only [decFieldsH]; exact Inside.panic
  | .cons m t fs, sm, seen, x :: xs, hx => by
    rw [intoAll_cons] at hx
    have ih := fun sm seen => inside_fields e fs sm seen xs hx.2
    simp only [decFieldsH]
    refine Inside.ite' (fun _ => Inside.bind (ih _ _) fun r hr => Inside.pure' (intoAll_cons.2 ⟨hx.1, hr⟩)) fun _ => Inside.ite' (fun _ => Inside.panic) fun _ =>
      Inside.bind Inside.onDec fun atEnd _ => Inside.ite' (fun _ => Inside.bind (ih _ _) fun r hr => Inside.pure' (intoAll_cons.2 ⟨hx.1, hr⟩)) fun _ => ?_
    cases hl : (if e = .borsh then t.directLib else none) with
    | none =>
      exact Inside.bind (inside_field hx.1 (inside_dec e t _ x hx.1)) fun y hy => Inside.bind inside_recordSize fun sm _ =>
        Inside.bind (ih _ _) fun r hr => Inside.pure' (intoAll_cons.2 ⟨hy, hr⟩)
    | some p =>
      rcases p with ⟨l, p⟩
      exact Inside.bind (inside_lib (into_libZero l)) fun y hy => Inside.bind (inside_boxed hy) fun z hz => Inside.bind (ih _ _) fun r hr => Inside.pure' (intoAll_cons.2 ⟨hz, hr⟩)
theorem inside_nth (e : Encoding) : ∀ (fs : Fields) (i : Nat) (xs : List HVal),
    IntoAll P xs → Inside P (IntoAll P) (decNthH e fs i xs)
  | .cons _ t _, 0, x :: xs, hx => by
    rw [intoAll_cons] at hx
    simp only [decNthH]
    exact Inside.bind Inside.onDec fun _ _ => Inside.bind (inside_dec e t {} x hx.1) fun y hy => Inside.pure' (intoAll_cons.2 ⟨hy, hx.2⟩)
  | .cons _ _ fs, i + 1, x :: xs, hx => by
    rw [intoAll_cons] at hx
    simp only [decNthH]
    exact Inside.bind (inside_nth e fs i xs hx.2) fun r hr => Inside.pure' (intoAll_cons.2 ⟨hx.1, hr⟩)
  | .nil, _, _, _ => by simp only [decNthH]; exact Inside.panic
  | .cons _ _ _, _, [], _ => by simp only [decNthH]; exact Inside.panic
end

theorem inside_decodeAt {t : Ty} {a : Nat} (ha : P a) : Inside P (fun _ => True) (decodeAt t a) := by
  unfold decodeAt
  exact Inside.bind Inside.onDec fun d _ => Inside.ite' (fun _ => Inside.panic) fun _ => Inside.bind Inside.onDec fun _ _ => Inside.bind (Inside.loadVar ha) fun y hy =>
    Inside.bind (inside_dec _ t _ y hy) fun z hz => Inside.storeVar ha hz

end Verif.OnHeap
