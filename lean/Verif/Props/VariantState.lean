import Verif.Model.VariantInto
import Verif.Proofs.DecodeInto
import Verif.Props.Ints
import Verif.Props.Varints
import Verif.Props.Variants
/-!
Property C86: what a `BaseVariant` holds after `UnmarshalBinaryVariant`.

C86 asks that its `TypeID` and its `Impl` always belong together.  This is true after success and for pointer types, false
after other failures: `C86_violated`.
-/
namespace Verif.Props
open Verif Verif.Spec

/-- The bytes end before the variant id does. -/
def IDShort (enc : TypeIDEncoding) (w : Bytes) : Prop :=
  match enc with
  | .uint8 => w = []
  | .uint32 => w.length < 4
  | .uvarint32 => ∀ b ∈ w, 128 ≤ b.toNat
  | .anchor => w.length < 8
  | .noTypeID => False
  | .other => False

/-- `Obtain` names a type of the list, and `Impl` is a value of that type. -/
def Agrees (types : List VariantType) (d : VariantDef) (v : BaseVariant) : Prop :=
  ∃ t ∈ types, ∃ u x, t.type = some u ∧ v.obtain d = (v.id, t.name, some (u, x))

/-- What the receiver holds after the body of a variant of type `u` with id `id` was decoded from `d`. -/
def bodyInto (u : Option Ty) (id : TypeID) (old : BaseVariant) (d : Dec) : Res Unit × BaseVariant × Dec :=
  match u with
  | none => (.err .unknownVariant, ⟨id, old.impl⟩, d)
  | some (.ptr u) =>
    match decodeInto u u.zero d with
    | (r, x, d') => (r, ⟨id, some (.ptr u, .ptr (some x))⟩, d')
  | some u =>
    match decodeInto u u.zero d with
    | (.ok (), x, d') => (.ok (), ⟨id, some (u, x)⟩, d')
    | (r, _, d') => (r, ⟨id, old.impl⟩, d')

/-- The two models agree. -/
theorem run_unmarshalVariantInto (d : VariantDef) (old : BaseVariant) :
    (unmarshalVariantInto d old).run = unmarshalVariant d := by
  funext s
  unfold unmarshalVariantInto unmarshalVariant Fill.run Fill.read
  rw [M.bind_apply]
  rcases readVariantID d.encoding s with ⟨r, s'⟩
  cases r with
  | err x => rfl
  | panic => rfl
  | ok id =>
    simp only []
    have hrun : ∀ t, decode t t.zero s' = (decodeInto t t.zero).run s' := fun t => by rw [run_decodeInto]
    cases d.typeOf id with
    | none => rfl
    | some o =>
      cases o with
      | none => rfl
      | some t =>
        cases t with
        | ptr t =>
          simp only [Fill.wrap, Fill.part, Fill.done, M.bind_apply, hrun, Fill.run]
          rcases decodeInto t t.zero s' with ⟨r, x, s''⟩
          cases r <;> rfl
        | _ =>
          simp only [Fill.part, Fill.done, M.bind_apply, hrun, Fill.run]
          generalize decodeInto _ _ s' = y
          rcases y with ⟨r, x, s''⟩
          cases r <;> rfl

/-- C86: if the bytes end within the id, the receiver is left as it is. -/
theorem C86_unreadable_partial (H : Bytes → Bytes) (enc : TypeIDEncoding) (types : List VariantType)
    (h : IDsSuffice H enc types) (d : VariantDef) (hd : newVariantDef H enc types = .ok d)
    (w : Bytes) (hw : IDShort enc w) (e : Encoding) (cur : Option Order) (pre : Bytes) (old : BaseVariant) :
    ∃ x, unmarshalVariantInto d old (decAt e cur pre w) = (.err x, old, decAt e cur pre w) := by
  obtain ⟨d0, hd0, henc, -⟩ := newVariantDef_spec h
  rw [hd, Res.ok.injEq] at hd0
  subst hd0
  have ho := decAt_ok e cur pre w
  have hl : left (decAt e cur pre w) = w.length := by rw [left_eq ho, decAt_rest]
  suffices hs : ∃ x, readVariantID enc (decAt e cur pre w) = (.err x, decAt e cur pre w) by
    obtain ⟨x, hx⟩ := hs
    exact ⟨x, by unfold unmarshalVariantInto Fill.read; rw [henc, hx]⟩
  cases enc <;> simp only [IDShort] at hw <;> simp only [readVariantID]
  · rcases C10_uvarint_robust _ ho with ⟨bs, post, hb, ⟨i, l, rfl, -, hlast⟩, -⟩ | ⟨⟨x, hx⟩, -⟩
    · have hm : l ∈ w := by
        have : (decAt e cur pre w).rest = w := decAt_rest ..
        rw [← this, Dec.rest, hb]; simp
      have := hw l hm
      omega
    · exact ⟨x, by unfold readUvarint32; simp only [M.bind_apply, hx]⟩
  · obtain ⟨x, hx⟩ := ((C03_short .le).2.2.2.2.2.2.1 _ ho).1 (by rw [hl]; omega)
    exact ⟨x, by rw [M.bind_apply, hx]⟩
  · obtain ⟨x, hx⟩ := ((C03_short .le).2.2.1 _ ho).1 (by rw [hl, hw]; simp)
    exact ⟨x, by rw [M.bind_apply, hx]⟩
  · refine ⟨.notEnough, ?_⟩
    unfold readTypeID readNBytes
    have hp : (decAt e cur pre w).pos + 8 > (decAt e cur pre w).data.length := by simp [decAt]; omega
    simp only [M.bind_apply, M.get_apply, show ¬ ((8 : Int) = 0) by decide, show ¬ ((8 : Int) < 0 ∨ (8 : Int) > 0x7FFFFFFF) by decide,
      if_false, if_pos hp]
    rfl

/-- C86: on the wire form of the id of the `j`-th type, `TypeID` becomes the id of that type whatever happens next.  For a
pointer type `Impl` becomes a new pointer to as much as could be decoded; for other types it becomes the decoded value, or stays
what it was if there is none. -/
theorem C86_selected_partial (H : Bytes → Bytes) (enc : TypeIDEncoding) (types : List VariantType)
    (h : IDsSuffice H enc types) (d : VariantDef) (hd : newVariantDef H enc types = .ok d)
    (j : Nat) (t : VariantType) (hj : types[j]? = some t) (w : Bytes) (hw : IDWire H enc j t.name w) :
    ∃ id, (∀ impl, BaseVariant.obtain ⟨id, impl⟩ d = (id, t.name, impl)) ∧
      ((types.map (·.name)).Nodup → d.typeID t.name = .ok id) ∧
      ∀ old e cur pre post, unmarshalVariantInto d old (decAt e cur pre (w ++ post)) =
        bodyInto t.type id old (decAt e cur (pre ++ w) post) := by
  obtain ⟨d0, hd0, henc, hin, -, -, hid, -⟩ := newVariantDef_spec h
  rw [hd, Res.ok.injEq] at hd0
  subst hd0
  refine ⟨vid H enc j t.name, fun impl => ?_, fun hn => ?_, fun old e cur pre post => ?_⟩
  · unfold BaseVariant.obtain; rw [(hin j t hj).2]; rfl
  · unfold VariantDef.typeID; rw [hid hn j t hj]
  · have hr := (idWire_reads e (fits_of_suffice h hj) (fun ha => by subst ha; exact h.1) hw).consumes cur pre post
    unfold unmarshalVariantInto Fill.read
    rw [henc, hr]
    simp only [(hin j t hj).1]
    cases ht : t.type with
    | none => rfl
    | some u =>
      cases u with
      | ptr u =>
        simp only [bodyInto, Fill.wrap, Fill.part, Fill.done]
        rcases decodeInto u u.zero (decAt e cur (pre ++ w) post) with ⟨r, x, d'⟩
        cases r <;> rfl
      | _ =>
        simp only [bodyInto, Fill.part, Fill.done]
        generalize decodeInto _ _ (decAt e cur (pre ++ w) post) = y
        rcases y with ⟨r, x, d'⟩
        cases r <;> rfl

/-- C86: an unknown id is stored, and `Impl` is left as it is. -/
theorem C86_unknown_partial (H : Bytes → Bytes) (enc : TypeIDEncoding) (types : List VariantType)
    (h : IDsSuffice H enc types) (d : VariantDef) (hd : newVariantDef H enc types = .ok d)
    (w : Bytes) (hw : IDUnknown H enc types w) (e : Encoding) :
    ∃ id, (∀ impl, BaseVariant.obtain ⟨id, impl⟩ d = (id, [], impl)) ∧
      (∀ n, (types.map (·.name)).Nodup → d.typeID n ≠ .ok id) ∧
      ∀ old cur pre post, unmarshalVariantInto d old (decAt e cur pre (w ++ post)) =
        (.err .unknownVariant, ⟨id, old.impl⟩, decAt e cur (pre ++ w) post) := by
  obtain ⟨d0, hd0, henc, -, hout, hout2, hid, hout3⟩ := newVariantDef_spec h
  rw [hd, Res.ok.injEq] at hd0
  subst hd0
  obtain ⟨id, hne, hr⟩ := unknown_read H enc types h w hw e
  refine ⟨id, fun impl => by unfold BaseVariant.obtain; rw [hout2 _ hne]; rfl, fun n hn => ?_, fun old cur pre post => ?_⟩
  · unfold VariantDef.typeID
    by_cases hm : n ∈ types.map (·.name)
    · obtain ⟨t, ht, rfl⟩ := List.mem_map.1 hm
      obtain ⟨j, hj⟩ := List.mem_iff_getElem?.1 ht
      rw [hid hn j t hj]
      simpa using hne j t hj
    · rw [hout3 n hm]; simp
  · unfold unmarshalVariantInto Fill.read
    rw [henc, hr cur pre post]
    simp only [hout _ hne]
    rfl

/-- C86, the part that holds: after a successful call, and after a failed one that found the id of a pointer type, `Obtain`
returns the name of a type of the definition and a value of this very type; whatever the receiver held before. -/
theorem C86_agree_partial (H : Bytes → Bytes) (enc : TypeIDEncoding) (types : List VariantType)
    (h : IDsSuffice H enc types) (d : VariantDef) (hd : newVariantDef H enc types = .ok d)
    (j : Nat) (t : VariantType) (hj : types[j]? = some t) (w : Bytes) (hw : IDWire H enc j t.name w)
    (old : BaseVariant) (e : Encoding) (cur : Option Order) (pre post : Bytes) (r : Res Unit) (v : BaseVariant) (d' : Dec)
    (hu : unmarshalVariantInto d old (decAt e cur pre (w ++ post)) = (r, v, d'))
    (hr : r = .ok () ∨ ∃ u, t.type = some (.ptr u)) :
    Agrees types d v ∧ ∃ u x, t.type = some u ∧ v.obtain d = (v.id, t.name, some (u, x)) := by
  obtain ⟨id, hob, -, hs⟩ := C86_selected_partial H enc types h d hd j t hj w hw
  rw [hs] at hu
  suffices hx : ∃ u x, t.type = some u ∧ v.obtain d = (v.id, t.name, some (u, x)) from
    ⟨⟨t, List.mem_of_getElem? hj, hx⟩, hx⟩
  cases ht : t.type with
  | none => rw [ht] at hu hr; simp only [bodyInto, Prod.mk.injEq] at hu; simp [← hu.1] at hr
  | some u =>
    rw [ht] at hu hr
    cases u with
    | ptr u =>
      simp only [bodyInto] at hu
      obtain ⟨-, rfl, -⟩ := by simpa only [Prod.mk.injEq] using hu
      exact ⟨_, _, rfl, hob _⟩
    | _ =>
      simp only [bodyInto] at hu
      generalize hy : decodeInto _ _ (decAt e cur (pre ++ w) post) = y at hu
      rcases y with ⟨r', x, s⟩
      cases r' with
      | ok _ =>
        obtain ⟨-, rfl, -⟩ := by simpa only [Prod.mk.injEq] using hu
        exact ⟨_, _, rfl, hob _⟩
      | err _ => simp only [Prod.mk.injEq] at hu; simp [← hu.1] at hr
      | panic => simp only [Prod.mk.injEq] at hu; simp [← hu.1] at hr

/-- Does the call fail with a receiver for which `Obtain` returns this name and this value? -/
def failsWith (d : VariantDef) (old : BaseVariant) (b : Bytes) (name : Bytes) (v : Val) : Bool :=
  match unmarshalVariantInto d old (Dec.new b .bin) with
  | (.err _, a, _) =>
    match a.obtain d with
    | (_, n, some (_, x)) => n == name && decide (x = v)
    | _ => false
  | _ => false

/-- C86 is false.  A receiver that holds the boolean of a type called "a" is decoded into again: the id of the `uint16` called
"b", but only one byte behind it.  The call fails, and the receiver now says it is a "b" while it holds the boolean.  An unknown
id leaves the boolean under no name. -/
theorem C86_violated :
    ∃ d, newVariantDef (fun _ => []) .uint8 vts = .ok d ∧
      d.typeID [97] = .ok [0, 0, 0, 0, 0, 0, 0, 0] ∧
      failsWith d ⟨[0, 0, 0, 0, 0, 0, 0, 0], some (.bool, .bool true)⟩ [1, 5] [98] (.bool true) = true ∧
      failsWith d ⟨[0, 0, 0, 0, 0, 0, 0, 0], some (.bool, .bool true)⟩ [7] [] (.bool true) = true := by
  obtain ⟨d, hd, hp⟩ := (defSatisfies_iff (newVariantDef (fun _ => []) .uint8 vts) (fun d =>
    decide (d.typeID [97] = .ok [0, 0, 0, 0, 0, 0, 0, 0] ∧
      failsWith d ⟨[0, 0, 0, 0, 0, 0, 0, 0], some (.bool, .bool true)⟩ [1, 5] [98] (.bool true) = true ∧
      failsWith d ⟨[0, 0, 0, 0, 0, 0, 0, 0], some (.bool, .bool true)⟩ [7] [] (.bool true) = true))).1 (by decide +kernel)
  exact ⟨d, hd, of_decide_eq_true hp⟩

/-- A pointer type whose body is cut short: the receiver holds the part that was there, under the right name. -/
example : defSatisfies (newVariantDef (fun _ => []) .uint8
      [⟨[97], some .bool⟩, ⟨[98], some (.ptr (.struct (.cons { name := [65] } (.uint .w8 false) (.cons { name := [66] } (.uint .w16 false) .nil))))⟩])
    (fun d => failsWith d ⟨[0, 0, 0, 0, 0, 0, 0, 0], some (.bool, .bool true)⟩ [1, 5, 6] [98]
      (.ptr (some (.struct [.uint 5, .uint 0])))) = true := by decide +kernel

example : IDShort .uint32 [1, 0, 0] := by unfold IDShort; decide
example : IDShort .uvarint32 [0x81, 0x80] := by unfold IDShort; decide

end Verif.Props
