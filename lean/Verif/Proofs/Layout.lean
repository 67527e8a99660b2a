import Verif.Spec.Layout
import Verif.Proofs.WireBytes
/-! Places with the same layout have the same bytes. -/
set_option linter.unusedSimpArgs false
namespace Verif
open Spec

/-- what is written at a place -/
abbrev Spec.Place.wire (e : Encoding) (p : Place) : Bytes := Spec.wire e p.ty p.order p.sized p.val

variable {e : Encoding}

theorem steady_wire {t : Ty} (h : Spec.steady t = true) (o o' : Order) (s s' : Bool) (v : Val) :
    wire e t o s v = wire e t o' s' v := by
  cases t <;> simp [Spec.steady] at h
  case uint w b => subst h; cases v <;> simp [wire, Width.bytes, fixed_one']
  case int w b => subst h; cases v <;> simp [wire, Width.bytes, fixed_one']
  case lib l => cases l <;> simp at h <;> cases v <;> simp [wire, libWire]
  all_goals cases v <;> simp [wire]

/-- an element on the bulk path -/
theorem elem_wire {t : Ty} {w : Width} (hw : t.uintKind = some w) (h : losesVarint t = false) (x : Val) :
    uintWire w x = wire e t .le false x := by
  have ho : ord e .le = .le := by simp [ord]
  cases t
  case lib l =>
    cases l <;> simp [losesVarint] at h <;> simp [Ty.uintKind, Ty.kind, Lib.kind] at hw <;> subst hw <;> cases x <;>
      simp [wire, uintWire, libWire, Width.bytes]
  all_goals simp [Ty.uintKind, Ty.kind] at hw
  all_goals subst hw
  all_goals cases x <;> simp [wire, uintWire, Width.bytes, ho]

theorem array_wire {t : Ty} (h : losesVarint t = false) (n : Nat) (o : Order) (s : Bool) (xs : List Val) :
    wire e (.array n t) o s (.arr xs) = xs.flatMap fun x => wire e t .le false x := by
  simp only [wire]
  cases hk : t.uintKind with
  | none => rfl
  | some w => simp only [elem_wire (e := e) hk h]

theorem slice_wire {t : Ty} (h : losesVarint t = false) (o : Order) (s : Bool) (xs : List Val) :
    wire e (.slice t) o s (.seq (some xs)) =
      (if s then [] else lenPrefix e xs.length) ++ xs.flatMap fun x => wire e t .le false x := by
  simp only [wire, Option.getD_some]
  cases hk : t.uintKind with
  | none => rfl
  | some w => simp only [elem_wire (e := e) hk h]

theorem untagged_wire (name : Bytes) (t : Ty) (v : Val) (fs : Fields) (names : List Bytes) (vs : List Val) :
    wireFields e (.cons (untagged name) t fs) names (v :: vs) =
      wire e t .le (names.contains name) v ++ wireFields e fs names vs := by
  simp [wireFields, untagged, fieldWire, announced]

theorem sameFields_enum (t : Ty) (names : List Bytes) : (sameFields t names).isEnum = false := by
  cases names with
  | nil => rfl
  | cons n ns => cases t <;> rfl

theorem untagged_enum (n : Bytes) (t : Ty) (fs : Fields) : (Fields.cons (untagged n) t fs).isEnum = false := by
  cases t <;> rfl

theorem sameFields_wire (t : Ty) : ∀ (names : List Bytes) (xs : List Val), names.length = xs.length →
    wireFields e (sameFields t names) [] xs = xs.flatMap fun x => wire e t .le false x
  | [], [], _ => by simp [sameFields, wireFields]
  | n :: ns, x :: xs, h => by
    rw [sameFields, untagged_wire, sameFields_wire t ns xs (by simpa using h)]
    simp

theorem entries_length (k : Ty) (m : List (Val × Val)) : (entries e k m).length = m.length := by
  unfold entries ascending; split <;> simp

theorem pair_wire (nk nt : Bytes) (k t : Ty) (x : Val × Val) (o : Order) (s : Bool) :
    wire e (pairTy nk nt k t) o s (pairVal x) = wire e k .le false x.1 ++ wire e t .le false x.2 := by
  simp only [pairTy, pairVal, wire, untagged_enum]
  rw [if_neg (by simp), untagged_wire, untagged_wire]
  simp [wireFields]

theorem announcesNone_wire : ∀ (fs gs : Fields) (us vs : List Val), announcesNone fs = true → us.length = fs.length →
    wireFields e (thenFields fs gs) [] (us ++ vs) = wireFields e fs [] us ++ wireFields e gs [] vs
  | .nil, gs, us, vs, _, h => by
    have : us = [] := by simpa [Fields.length] using h
    subst this; simp [thenFields, wireFields]
  | .cons m t fs, gs, [], vs, _, h => by simp [Fields.length] at h
  | .cons m t fs, gs, u :: us, vs, ha, h => by
    simp only [announcesNone, Bool.and_eq_true, beq_iff_eq] at ha
    have ih := announcesNone_wire fs gs us vs ha.2 (by simpa [Fields.length] using h)
    have hn : announced m [] = [] := by simp [announced, ha.1]
    simp only [thenFields, List.cons_append, wireFields, hn, ih]
    split
    · rfl
    · split <;> simp

theorem fieldWire_congr {m m' : FieldMeta} {t u : Ty} {v w : Val} {b : Bytes} (h1 : m.tag.option = m'.tag.option)
    (h2 : m.tag.coption = m'.tag.coption) (h3 : (m.tag.option = true ∨ m.tag.coption = true) → t.isZero v = u.isZero w) :
    fieldWire e m t v b = fieldWire e m' u w b := by
  unfold fieldWire
  rw [← h1, ← h2]
  cases ho : m.tag.option <;> cases hc : m.tag.coption <;> simp [ho, hc] at h3 ⊢
  all_goals rw [h3]

theorem option_wire (n0 n1 n2 : Bytes) (t : Ty) (p : Option Val) (o : Order) (s : Bool) :
    wire .borsh (optionTy n0 n1 n2 t) o s (optionVal t p) =
      match p with
      | none => flag .borsh false
      | some v => flag .borsh true ++ wire .borsh t .le false v := by
  cases p <;> simp [optionTy, optionVal, wire, Fields.isEnum, wireNth, libWire, flag]

theorem SameLayout.bytes {p q : Place} (h : SameLayout e p q) : p.wire e = q.wire e := by
  induction h using SameLayout.rec
    (motive_2 := fun t xs u ys _ =>
      xs.length = ys.length ∧ (xs.flatMap fun x => wire e t .le false x) = ys.flatMap fun x => wire e u .le false x)
    (motive_3 := fun names fs vs gs ws _ => wireFields e fs names vs = wireFields e gs names ws) with
  | refl => rfl
  | symm _ h => exact h.symm
  | trans _ _ h h' => exact h.trans h'
  | steady h => exact steady_wire h _ _ _ _ _
  | scalar h => rename_i t v; cases t <;> simp [Spec.scalar] at h <;> cases v <;> simp [Place.wire, wire]
  | borshScalar he h => subst he; rename_i t v; cases t <;> simp [Spec.scalar] at h <;> cases v <;> simp [Place.wire, wire, ord]
  | namedUint => rename_i v; cases v <;> simp [Place.wire, wire]
  | namedInt => rename_i v; cases v <;> simp [Place.wire, wire]
  | enumNumber => rename_i v; cases v <;> simp [Place.wire, wire, Width.bytes, fixed_one']
  | twos => simp [Place.wire, wire]
  | bits32 => simp [Place.wire, wire, Width.bytes]
  | bits64 => simp [Place.wire, wire, Width.bytes]
  | oneByte => rename_i b; cases b <;> simp [Place.wire, wire, Width.bytes, fixed_one']
  | libBool => simp [Place.wire, wire, libWire]
  | libInt64 h => simp only [Place.wire, wire, libWire, Width.bytes, Width.bits, ord]; split <;> simp_all
  | libUint64 h => simp only [Place.wire, wire, libWire, Width.bytes, ord]; split <;> simp_all
  | libFloat64 h => simp only [Place.wire, wire, libWire, ord]; split <;> simp_all
  | lib128 h h' =>
    rename_i l l'
    cases l <;> simp at h <;> cases l' <;> simp at h' <;> simp [Place.wire, wire, libWire]
  | words128 h =>
    simp only [Place.wire, wire, libWire, Ty.uintKind, Ty.kind, List.flatMap_cons, List.flatMap_nil, List.append_nil, uintWire,
      Width.bytes]
    rw [fixed128_eq _ _ _ h]
    simp [put128, fixed_eq]
  | libString h => simp [Place.wire, wire, libWire, strPrefix, h]
  | libBytes => simp [Place.wire, wire, libWire]
  | byteSlice =>
    rename_i b
    simp only [Place.wire, wire, libWire, Ty.uintKind, Ty.kind, Option.getD_some, List.length_map]
    simp only [Bool.false_eq_true, if_false, List.append_cancel_left_eq, List.flatMap_map, uintWire, Width.bytes, fixed_one]
    simp
  | pointer h =>
    simp only [Place.wire, wire]
    rw [if_neg (fun hh => h hh.1 hh.2)]
  | borshPointer he h =>
    subst he
    simp only [Place.wire, wire]
    rw [if_pos ⟨trivial, h⟩]
  | nilSlice => simp [Place.wire, wire]
  | nilMap => simp [Place.wire, wire]
  | slice h1 h2 _ h =>
    obtain ⟨hl, hw⟩ := h
    simp only [Place.wire, slice_wire h1, slice_wire h2, hl, hw]
  | array h1 h2 _ h =>
    obtain ⟨hl, hw⟩ := h
    simp only [Place.wire, array_wire h1, array_wire h2, hw]
  | sizedSlice => simp [Place.wire, wire]
  | tuple h1 h2 =>
    simp only [Place.wire]
    rw [array_wire h1]
    simp only [wire, sameFields_enum]
    rw [if_neg (by simp), sameFields_wire _ _ _ h2]
  | pairs =>
    simp only [Place.wire]
    rw [slice_wire (t := pairTy _ _ _ _) rfl, List.flatMap_map]
    simp [pair_wire, wire, entries_length]
  | struct h1 h2 _ h =>
    simp only [Place.wire, wire]
    rw [if_neg (fun hh => by simp [h1 hh.1] at hh), if_neg (fun hh => by simp [h2 hh.1] at hh)]
    exact h
  | noElems => simp
  | elem _ _ h hs =>
    obtain ⟨hl, hw⟩ := hs
    have := h
    simp only [Place.wire] at this
    simp [hl, hw, this]
  | noFields => rfl
  | asIs => rfl
  | swap _ h => exact h.symm
  | chain _ _ h h' => exact h.trans h'
  | @field names m m' t u v w fs gs vs ws h1 h2 h3 h4 h5 h6 h7 h8 _ _ hw hr =>
    have ha : announced m' names = announced m names := by simp [announced, h5]
    simp only [Place.wire] at hw
    simp only [wireFields, h1, h2, h3, h4, Bool.false_eq_true, if_false, if_true]
    rw [ha] at hw ⊢
    rw [hw, hr, fieldWire_congr h6 h7 h8]
  | @drop names m _ _ _ _ _ _ hi _ hr =>
    rcases hi with hi | ⟨hi, hz⟩
    · simp only [wireFields, hi, if_true, hr]
    · have ha : announced m names = names := by simp [announced, hz]
      simp only [wireFields, hi, ha, Bool.false_eq_true, if_false, hr, ite_self]
  | embed h1 h2 h3 _ hr =>
    rw [announcesNone_wire _ _ _ _ h2 h3] at hr
    rw [untagged_wire, ← hr]
    simp only [wire]
    rw [if_neg (fun hh => by simp [h1 hh.1] at hh)]
  | @option _ _ _ _ _ _ _ p _ _ _ _ he ht _ hr =>
    subst he
    rw [untagged_wire, option_wire, ← hr]
    cases p <;> simp [wireFields, fieldWire, announced, Ty.isZero, wire, ht]

end Verif
