import Verif.Spec.Offsets
import Verif.Spec.Copy
import Verif.Proofs.Layout
/-! What stands at an offset. -/
set_option linter.unusedSimpArgs false
namespace Verif
open Spec

variable {e : Encoding}

/-- The part `x` stands `k` bytes into `b`, and `b'` is `b` with `x'` in its place. -/
def Stands (k : Nat) (b b' x x' : Bytes) : Prop := ∃ a c, a.length = k ∧ b = a ++ x ++ c ∧ b' = a ++ x' ++ c

theorem Stands.after {k j : Nat} {b b' x x' : Bytes} (h : Stands k b b' x x') (a c : Bytes) (ha : a.length = j) :
    Stands (j + k) (a ++ b ++ c) (a ++ b' ++ c) x x' := by
  obtain ⟨a1, c1, h1, rfl, rfl⟩ := h
  exact ⟨a ++ a1, c1 ++ c, by simp [ha, h1], by simp, by simp⟩

theorem extent_length (t : Ty) (xs : List Val) : (xs.flatMap fun x => wire e t .le false x).length = extent e t xs := by
  simp [extent, List.length_flatMap]

theorem elem_stands {k : Nat} {t : Ty} {pre post : List Val} {v v' : Val} {x x' : Bytes}
    (h : Stands k (wire e t .le false v) (wire e t .le false v') x x') (pfx : Bytes) :
    Stands (pfx.length + extent e t pre + k) (pfx ++ (pre ++ v :: post).flatMap fun x => wire e t .le false x)
      (pfx ++ (pre ++ v' :: post).flatMap fun x => wire e t .le false x) x x' := by
  have := h.after (pfx ++ pre.flatMap fun x => wire e t .le false x) (post.flatMap fun x => wire e t .le false x) rfl
  rw [List.length_append, extent_length] at this
  simpa [List.flatMap_append, List.append_assoc] using this

theorem flagSize_present {m : FieldMeta} {t : Ty} {v : Val}
    (h : m.tag.option = true ∨ (e = .borsh ∧ m.tag.coption = true) → t.isZero v = false) (b : Bytes) :
    fieldWire e m t v b = (if m.tag.option then flag e true else []) ++ (if e = .borsh ∧ m.tag.coption then cflag true else []) ++ b := by
  unfold fieldWire
  by_cases ho : m.tag.option = true
  · have hz := h (.inl ho)
    simp only [ho, hz, if_true, Bool.false_eq_true, and_false, if_false]
    split <;> simp
  · by_cases hc : e = .borsh ∧ m.tag.coption = true
    · have hz := h (.inr hc)
      simp [ho, hc, hz]
    · simp [ho, hc]

theorem flagSize_length (m : FieldMeta) :
    ((if m.tag.option then flag e true else []) ++ (if e = .borsh ∧ m.tag.coption then cflag true else []) : Bytes).length =
      flagSize e m := by
  unfold flagSize flag cflag
  by_cases h1 : m.tag.option = true <;> by_cases h2 : e = .borsh ∧ m.tag.coption = true <;> simp [h1, h2]

theorem pairs_length (a t : Ty) (pre : List (Val × Val)) :
    (pre.flatMap fun x => wire e a .le false x.1 ++ wire e t .le false x.2).length =
      extent e a (pre.map Prod.fst) + extent e t (pre.map Prod.snd) := by
  induction pre with
  | nil => rfl
  | cons x xs ih =>
    simp only [List.flatMap_cons, List.length_append, ih]
    simp only [extent, List.map_cons, List.sum_cons]
    omega

theorem Within.stands {k : Nat} {p p' q q' : Place} (h : Within e k p p' q q') :
    Stands k (p.wire e) (p'.wire e) (q.wire e) (q'.wire e) := by
  induction h using Within.rec
    (motive_2 := fun names k fs vs vs' q q' _ =>
      Stands k (wireFields e fs names vs) (wireFields e fs names vs') (q.wire e) (q'.wire e))
    (motive_3 := fun i k fs vs vs' q q' _ =>
      Stands k (wireNth e fs i vs) (wireNth e fs i vs') (q.wire e) (q'.wire e)) with
  | here => exact ⟨[], [], rfl, by simp, by simp⟩
  | deref hl _ h =>
    simp only [Place.wire, wire] at h ⊢
    rw [if_neg (fun hh => hl hh.1 hh.2), if_neg (fun hh => hl hh.1 hh.2)]
    exact h
  | borshDeref he hl _ h =>
    subst he
    simp only [Place.wire, wire, Option.getD_some] at h ⊢
    rw [if_pos ⟨trivial, hl⟩, if_pos ⟨trivial, hl⟩]
    exact h
  | @arrayElem _ _ _ _ _ pre post _ _ _ _ hl _ h =>
    have := elem_stands (pre := pre) (post := post) h []
    simpa [Place.wire, array_wire hl] using this
  | @sliceElem _ _ s _ pre post _ _ _ _ hl _ h =>
    have := elem_stands (pre := pre) (post := post) h (if s then [] else lenPrefix e (pre.length + 1 + post.length))
    have hn : ∀ v : Val, (pre ++ v :: post).length = pre.length + 1 + post.length := by intro v; simp; omega
    have hp : (if s then [] else lenPrefix e (pre.length + 1 + post.length) : Bytes).length =
        if s then 0 else (lenPrefix e (pre.length + 1 + post.length)).length := by split <;> rfl
    simp only [Place.wire, slice_wire hl, hn]
    rw [hp] at this
    exact this
  | @mapValue _ _ _ a t m m' pre post x v v' _ _ h1 h2 _ h =>
    have hm : m'.length = m.length := by
      rw [← entries_length (e := e) a m', ← entries_length (e := e) a m, h1, h2]; simp
    simp only [Place.wire, wire, Option.getD_some, h1, h2, hm]
    have := h.after (lenPrefix e m.length ++ (pre.flatMap fun x => wire e a .le false x.1 ++ wire e t .le false x.2) ++
      wire e a .le false x) (post.flatMap fun x => wire e a .le false x.1 ++ wire e t .le false x.2) rfl
    simp only [List.length_append, pairs_length] at this
    simpa [List.flatMap_append, List.append_assoc, Nat.add_assoc] using this
  | fieldOf hr _ h =>
    simp only [Place.wire, wire]
    rw [if_neg (fun hh => by simp [hr hh.1] at hh), if_neg (fun hh => by simp [hr hh.1] at hh)]
    exact h
  | @variantOf _ n _ _ _ _ _ _ _ he hn _ h =>
    subst he
    simp only [Place.wire, wire, hn]
    rw [if_pos ⟨trivial, trivial⟩, if_pos ⟨trivial, trivial⟩]
    have := h.after (fixed .le 1 n) [] (fixed_length _ _ _)
    simpa using this
  | @this names k m t fs v v' vs q q' hs hx hz _ h =>
    simp only [wireFields, hs, hx, Bool.false_eq_true, if_false, if_true]
    rw [flagSize_present (fun hh => (hz hh).1), flagSize_present (fun hh => (hz hh).2)]
    have := h.after _ (wireFields e fs (announced m names) vs) (flagSize_length (e := e) m)
    exact this
  | @later names _ m t _ v _ _ _ _ hs hx _ h =>
    simp only [wireFields, hs, hx, Bool.false_eq_true, if_false, if_true]
    have := h.after (fieldWire e m t v (wire e t m.tag.order ((announced m names).contains m.name) v)) [] rfl
    simpa using this
  | @afterIgnored names k m t fs v v' vs vs' q q' hi _ h =>
    rcases hi with hi | ⟨hi, hz⟩
    · simpa only [wireFields, hi, if_true] using h
    · have ha : announced m names = names := by simp [announced, hz]
      simpa only [wireFields, hi, ha, Bool.false_eq_true, if_false, ite_self] using h
  | thisVariant _ h => simpa only [wireNth] using h
  | laterVariant _ h => simpa only [wireNth] using h

/-! ### Offsets from the type alone -/

theorem fixed_loses {t : Ty} {k : Nat} (h : fixedSize e true t = some k) : losesVarint t = false := by
  cases t
  case lib l => cases l <;> simp [fixedSize, libSize] at h <;> rfl
  all_goals rfl

theorem uintWire_length {w : Width} {x : Val} (h : UintElem w x) : (uintWire w x).length = w.bytes := by
  cases x <;> simp [UintElem] at h
  simp [uintWire]

theorem flatMap_length_const {α : Type} (f : α → Bytes) (k : Nat) : ∀ xs : List α, (∀ x ∈ xs, (f x).length = k) →
    (xs.flatMap f).length = xs.length * k
  | [], _ => by simp
  | x :: xs, h => by
    rw [List.flatMap_cons, List.length_append, h x (by simp), flatMap_length_const f k xs (fun y hy => h y (by simp [hy]))]
    simp [Nat.add_mul]; omega

mutual
theorem wire_size : (t : Ty) → (k : Nat) → fixedSize e true t = some k → (size : Option Int) → (o : Order) → (s s' : Bool) →
    (v : Val) → Encodable e t size v → Returns e t s' v → (wire e t o s v).length = k
  | .bool, k, h, _, o, s, _, v, hv, _ => by
    cases v <;> simp [Encodable] at hv
    simp [fixedSize] at h; simp [wire, h]
  | .uint w _, k, h, _, o, s, _, v, hv, _ => by
    cases v <;> simp [Encodable] at hv
    simp [fixedSize] at h; simp [wire, h]
  | .int w _, k, h, _, o, s, _, v, hv, _ => by
    cases v <;> simp [Encodable] at hv
    simp [fixedSize] at h; simp [wire, h]
  | .borshEnum, k, h, _, o, s, _, v, hv, _ => by
    cases v <;> simp [Encodable] at hv
    simp [fixedSize] at h; simp [wire, h]
  | .f32, k, h, _, o, s, _, v, hv, _ => by
    cases v <;> simp [Encodable] at hv
    simp [fixedSize] at h; simp [wire, h]
  | .f64, k, h, _, o, s, _, v, hv, _ => by
    cases v <;> simp [Encodable] at hv
    simp [fixedSize] at h; simp [wire, h]
  | .lib l, k, h, _, o, s, _, v, hv, _ => by
    cases l <;> simp [fixedSize, libSize] at h <;> cases v <;> simp [Encodable, LibEnc] at hv <;> simp [wire, libWire, h]
  | .ptr t, k, h, size, o, s, s', v, hv, hr => by
    simp only [fixedSize] at h
    cases v <;> simp only [Encodable] at hv
    rename_i p
    cases p with
    | none => simp [Returns] at hr
    | some x =>
      simp only [Returns] at hr
      simp only [wire, Option.getD_some]
      split
      · exact wire_size t k h _ _ _ _ x hv hr.2
      · exact wire_size t k h _ _ _ _ x hv hr.2
  | .array n t, k, h, _, o, s, _, v, hv, hr => by
    cases v <;> simp only [Encodable] at hv
    rename_i xs
    simp only [Returns] at hr
    simp only [fixedSize] at h
    simp only [wire]
    cases hk : t.kind
    case uint w =>
      have hu : t.uintKind = some w := by simp [Ty.uintKind, hk]
      simp only [hu, hk] at h hv ⊢
      rw [flatMap_length_const _ w.bytes _ (fun x hx => uintWire_length (hv.2 x hx)), hv.1]
      split at h <;> simp at h
      exact h
    all_goals
      have hu : t.uintKind = none := by simp [Ty.uintKind, hk]
      simp only [hu, hk, Option.map_eq_some_iff] at h hv hr ⊢
      obtain ⟨j, hj, rfl⟩ := h
      rw [flatMap_length_const _ j _ (fun x hx => wire_size t j hj _ _ _ _ x (hv.2 x hx) (hr x hx)), hv.1]
  | .struct fs, k, h, _, o, s, _, v, hv, hr => by
    cases v <;> simp only [Encodable] at hv
    rename_i vs
    simp only [fixedSize] at h
    simp only [Returns] at hr
    simp only [wire]
    split at h
    · simp at h
    · rename_i hn
      rw [if_neg hn] at hv hr ⊢
      exact wireFields_size fs k h _ _ _ _ vs hv hr
  | .str, k, h, _, _, _, _, _, _, _ => by simp [fixedSize] at h
  | .slice _, k, h, _, _, _, _, _, _, _ => by simp [fixedSize] at h
  | .map _ _, k, h, _, _, _, _, _, _, _ => by simp [fixedSize] at h
  | .iface, k, h, _, _, _, _, _, _, _ => by simp [fixedSize] at h
  | .plainInt, k, h, _, _, _, _, _, _, _ => by simp [fixedSize] at h
  | .plainUint, k, h, _, _, _, _, _, _, _ => by simp [fixedSize] at h
  | .other, k, h, _, _, _, _, _, _, _ => by simp [fixedSize] at h
theorem wireFields_size : (fs : Fields) → (k : Nat) → fixedFieldsSize e true fs = some k → (sm : List (Bytes × Int)) →
    (names names' : List Bytes) → (seen : Bool) → (vs : List Val) → EncodableFields e fs sm vs → ReturnsFields e fs names' seen vs →
    (wireFields e fs names vs).length = k
  | .nil, k, h, _, _, _, _, vs, hv, _ => by
    simp [fixedFieldsSize] at h
    simp [wireFields, h]
  | .cons m t fs, k, h, sm, names, names', seen, [], hv, _ => by simp [EncodableFields] at hv
  | .cons m t fs, k, h, sm, names, names', seen, v :: vs, hv, hr => by
    simp only [fixedFieldsSize] at h
    simp only [EncodableFields] at hv
    simp only [ReturnsFields] at hr
    simp only [wireFields]
    by_cases hs : m.tag.skip = true
    · rw [if_pos hs] at h hv hr ⊢
      exact wireFields_size fs k h _ _ _ _ vs hv hr
    · rw [if_neg hs] at h hv hr ⊢
      split at h
      · simp at h
      · rename_i ht
        simp only [not_or, ne_eq, Decidable.not_not] at ht
        obtain ⟨h1, h2, h3, h4⟩ := ht
        simp only [announce, h4, if_true] at hv
        have hna : ¬ absent e m t v := by simp [absent, h1, h2]
        by_cases hx : m.exported = true
        · simp only [hx, Bool.not_true, Bool.false_eq_true, if_false, if_true, Option.bind_eq_some_iff,
            Option.map_eq_some_iff] at h hr ⊢
          obtain ⟨a, ha, b, hb, rfl⟩ := h
          have hf : ∀ body, fieldWire e m t v body = body := by intro body; simp [fieldWire, h1, h2]
          rw [List.length_append, hf, wire_size t a ha _ _ _ _ v (hv.1 hx hna) (hr.2.1.2.2.2.2.2 hna),
            wireFields_size fs b hb _ _ _ _ vs hv.2 hr.2.2]
        · simp only [hx, Bool.not_false, Bool.false_eq_true, if_false, if_true] at h hr ⊢
          exact wireFields_size fs k h _ _ _ _ vs hv.2 hr.2.2
end

theorem extent_const {t : Ty} {k : Nat} {xs : List Val} (h : ∀ x ∈ xs, (wire e t .le false x).length = k) :
    extent e t xs = xs.length * k := by
  rw [← extent_length]
  exact flatMap_length_const _ k xs h

theorem split_at {xs : List Val} {i : Nat} {x : Val} (h : xs[i]? = some x) :
    xs = xs.take i ++ x :: xs.drop (i + 1) ∧ (xs.take i).length = i := by
  obtain ⟨hi, rfl⟩ := List.getElem?_eq_some_iff.1 h
  refine ⟨?_, by simp; omega⟩
  rw [List.getElem_cons_drop, List.take_append_drop]

/-- an element and those before it -/
theorem elems_size {t : Ty} {k : Nat} (hk : fixedSize e true t = some k) {xs : List Val}
    (hv : ∀ x ∈ xs, match t.uintKind with | some w => UintElem w x | none => Encodable e t none x)
    (hr : t.uintKind = none → ∀ x ∈ xs, Returns e t false x) : ∀ x ∈ xs, (wire e t .le false x).length = k := by
  intro x hx
  have h1 := hv x hx
  cases hu : t.uintKind with
  | none =>
    rw [hu] at h1
    exact wire_size t k hk _ _ _ _ x h1 (hr hu x hx)
  | some w =>
    rw [hu] at h1
    rw [← elem_wire hu (fixed_loses hk) x, uintWire_length h1]
    cases t
    case lib l => cases l <;> simp [Ty.uintKind, Ty.kind, Lib.kind] at hu <;> simp [fixedSize, libSize] at hk <;> subst hu <;> simp [← hk, Width.bytes]
    all_goals simp [Ty.uintKind, Ty.kind] at hu
    all_goals simp [fixedSize] at hk
    all_goals subst hu
    all_goals simp [← hk, Width.bytes]

theorem offset_bulk {t : Ty} {w : Width} (hu : t.uintKind = some w) {p : List Nat} {k : Nat} (h : offsetOf e t p = some k) :
    p = [] := by
  cases p with
  | nil => rfl
  | cons i p =>
    cases t <;> simp [Ty.uintKind, Ty.kind] at hu <;> simp [offsetOf] at h

mutual
theorem offset_within : (t : Ty) → (p : List Nat) → (k : Nat) → offsetOf e t p = some k → (size : Option Int) → (s' : Bool) →
    (o : Order) → (v : Val) → (q : Place) → partOf e t o p v = some q → Encodable e t size v → Returns e t s' v →
    Within e k ⟨o, false, t, v⟩ ⟨o, false, t, v⟩ q q
  | t, [], k, h, _, _, o, v, q, hq, _, _ => by
    simp only [offsetOf, Option.some.injEq] at h
    simp only [partOf, Option.some.injEq] at hq
    subst h; subst hq
    exact .here
  | .ptr t, i :: p, k, h, size, s', o, v, q, hq, hv, hr => by
    simp only [offsetOf] at h
    cases v <;> simp only [Encodable] at hv
    rename_i x
    cases x with
    | none => simp [Returns] at hr
    | some x =>
      simp only [Returns] at hr
      simp only [partOf] at hq
      by_cases hb : e = .borsh ∧ t.asLib = none
      · rw [if_pos hb] at hq
        exact .borshDeref hb.1 hb.2 (offset_within t (i :: p) k h _ _ _ x q hq hv hr.2)
      · rw [if_neg hb] at hq
        exact .deref (fun he hn => hb ⟨he, hn⟩) (offset_within t (i :: p) k h _ _ _ x q hq hv hr.2)
  | .array n t, i :: p, k, h, size, s', o, v, q, hq, hv, hr => by
    simp only [offsetOf, Option.bind_eq_some_iff, Option.map_eq_some_iff] at h
    obtain ⟨j, hj, l, hl, rfl⟩ := h
    cases v <;> simp only [Encodable] at hv
    rename_i xs
    simp only [partOf, Option.bind_eq_some_iff] at hq
    obtain ⟨x, hx, hq⟩ := hq
    obtain ⟨h1, h2⟩ := split_at hx
    have hmem : x ∈ xs := List.mem_of_getElem? hx
    have hsz := elems_size hj (xs := xs) hv.2 (fun hu => by simpa only [Returns, hu] using hr)
    have hlen : extent e t (xs.take i) = i * j := by
      rw [extent_const fun x hx => hsz x (List.mem_of_mem_take hx), h2]
    have hw : Within e l ⟨.le, false, t, x⟩ ⟨.le, false, t, x⟩ q q := by
      cases hu : t.uintKind with
      | some w =>
        have := offset_bulk hu hl
        subst this
        simp only [offsetOf, Option.some.injEq] at hl
        simp only [partOf, Option.some.injEq] at hq
        subst hl; subst hq
        exact .here
      | none =>
        have h3 := hv.2 x hmem
        simp only [Returns, hu] at hr h3
        exact offset_within t p l hl _ _ _ x q hq h3 (hr x hmem)
    have := Within.arrayElem (n := n) (o := o) (s := false) (pre := xs.take i) (post := xs.drop (i + 1)) (fixed_loses hj) hw
    rw [hlen, ← h1] at this
    exact this
  | .slice t, i :: p, k, h, size, s', o, v, q, hq, hv, hr => by
    simp only [offsetOf] at h
    split at h
    case isFalse => simp at h
    rename_i he
    simp only [Option.bind_eq_some_iff, Option.map_eq_some_iff] at h
    obtain ⟨j, hj, l, hl, rfl⟩ := h
    cases v <;> simp only [Encodable] at hv
    rename_i xs
    cases xs with
    | none => simp [partOf] at hq
    | some xs =>
      simp only [partOf, Option.bind_eq_some_iff] at hq
      simp only [Option.getD_some] at hv
      obtain ⟨x, hx, hq⟩ := hq
      obtain ⟨h1, h2⟩ := split_at hx
      have hmem : x ∈ xs := List.mem_of_getElem? hx
      have hsz := elems_size hj (xs := xs) hv.2 (fun hu => by simp only [Returns, hu, Option.getD_some] at hr; exact hr.2.2)
      have hlen : extent e t (xs.take i) = i * j := by
        rw [extent_const fun x hx => hsz x (List.mem_of_mem_take hx), h2]
      have hw : Within e l ⟨.le, false, t, x⟩ ⟨.le, false, t, x⟩ q q := by
        cases hu : t.uintKind with
        | some w =>
          have := offset_bulk hu hl
          subst this
          simp only [offsetOf, Option.some.injEq] at hl
          simp only [partOf, Option.some.injEq] at hq
          subst hl; subst hq
          exact .here
        | none =>
          have h3 := hv.2 x hmem
          simp only [Returns, hu, Option.getD_some] at hr h3
          exact offset_within t p l hl _ _ _ x q hq h3 (hr.2.2 x hmem)
      have := Within.sliceElem (o := o) (s := false) (pre := xs.take i) (post := xs.drop (i + 1)) (fixed_loses hj) hw
      rw [hlen, ← h1] at this
      simpa [lenPrefix, he] using this
  | .struct fs, i :: p, k, h, size, s', o, v, q, hq, hv, hr => by
    simp only [offsetOf] at h
    split at h
    · simp at h
    · rename_i hn
      cases v <;> simp only [Encodable] at hv
      simp only [Returns] at hr
      rw [if_neg hn] at hv hr
      simp only [partOf] at hq
      exact .fieldOf (fun he => by simpa [he] using hn) (offsetIn_within fs i p k h _ _ _ _ q hq hv hr)
  | .bool, _ :: _, _, h, _, _, _, _, _, _, _, _ => by simp [offsetOf] at h
  | .uint _ _, _ :: _, _, h, _, _, _, _, _, _, _, _ => by simp [offsetOf] at h
  | .int _ _, _ :: _, _, h, _, _, _, _, _, _, _, _ => by simp [offsetOf] at h
  | .borshEnum, _ :: _, _, h, _, _, _, _, _, _, _, _ => by simp [offsetOf] at h
  | .f32, _ :: _, _, h, _, _, _, _, _, _, _, _ => by simp [offsetOf] at h
  | .f64, _ :: _, _, h, _, _, _, _, _, _, _, _ => by simp [offsetOf] at h
  | .str, _ :: _, _, h, _, _, _, _, _, _, _, _ => by simp [offsetOf] at h
  | .lib _, _ :: _, _, h, _, _, _, _, _, _, _, _ => by simp [offsetOf] at h
  | .map _ _, _ :: _, _, h, _, _, _, _, _, _, _, _ => by simp [offsetOf] at h
  | .iface, _ :: _, _, h, _, _, _, _, _, _, _, _ => by simp [offsetOf] at h
  | .plainInt, _ :: _, _, h, _, _, _, _, _, _, _, _ => by simp [offsetOf] at h
  | .plainUint, _ :: _, _, h, _, _, _, _, _, _, _, _ => by simp [offsetOf] at h
  | .other, _ :: _, _, h, _, _, _, _, _, _, _, _ => by simp [offsetOf] at h
theorem offsetIn_within : (fs : Fields) → (i : Nat) → (p : List Nat) → (k : Nat) → offsetIn e fs i p = some k →
    (sm : List (Bytes × Int)) → (names' : List Bytes) → (seen : Bool) → (vs : List Val) → (q : Place) →
    partIn e fs i p vs = some q → EncodableFields e fs sm vs → ReturnsFields e fs names' seen vs →
    InFields e [] k fs vs vs q q
  | .nil, i, p, k, h, _, _, _, _, _, _, _, _ => by simp [offsetIn] at h
  | .cons m t fs, i, p, k, h, _, _, _, [], _, hq, _, _ => by cases i <;> simp [partIn] at hq
  | .cons m t fs, 0, p, k, h, sm, names', seen, v :: vs, q, hq, hv, hr => by
    simp only [offsetIn] at h
    split at h
    · simp at h
    · rename_i hc
      simp only [framed, Bool.or_eq_true, not_or, Bool.not_eq_true, Bool.not_eq_eq_eq_not, Bool.not_false, bne_iff_ne, ne_eq,
        Decidable.not_not, bne_eq_false_iff_eq] at hc
      obtain ⟨⟨h1, h2⟩, ⟨h3, h4⟩, h5⟩ := hc
      have h2 : m.exported = true := by simpa using h2
      have hna : ¬ absent e m t v := by simp [absent, h3, h4]
      have ha : announced m [] = [] := by simp [announced, h5]
      simp only [EncodableFields, h1, announce, h5, if_true, Bool.false_eq_true, if_false] at hv
      simp only [ReturnsFields, h1, h2, if_true, Bool.false_eq_true, if_false] at hr
      simp only [partIn] at hq
      have hw := offset_within t p k h _ _ _ v q hq (hv.1 h2 hna) (hr.2.1.2.2.2.2.2 hna)
      have hf : flagSize e m = 0 := by simp [flagSize, h3, h4]
      have := InFields.this (e := e) (names := []) (m := m) (t := t) (fs := fs) (vs := vs) h1 h2 (by simp [h3, h4])
        (k := k) (v := v) (v' := v) (q := q) (q' := q) (by rw [ha]; exact hw)
      rw [hf, Nat.zero_add] at this
      exact this
  | .cons m t fs, i + 1, p, k, h, sm, names', seen, v :: vs, q, hq, hv, hr => by
    simp only [offsetIn] at h
    simp only [partIn] at hq
    simp only [EncodableFields] at hv
    simp only [ReturnsFields] at hr
    by_cases hs : m.tag.skip = true
    · rw [if_pos hs] at h hv hr
      exact .afterIgnored (.inl hs) (offsetIn_within fs i p k h _ _ _ vs q hq hv hr)
    · rw [if_neg hs] at h hv hr
      split at h
      · simp at h
      · rename_i hc
        simp only [framed, Bool.or_eq_true, not_or, Bool.not_eq_true, bne_eq_false_iff_eq] at hc
        obtain ⟨⟨h3, h4⟩, h5⟩ := hc
        have hna : ¬ absent e m t v := by simp [absent, h3, h4]
        have ha : announced m [] = [] := by simp [announced, h5]
        simp only [announce, h5, if_true] at hv
        by_cases hx : m.exported = true
        · simp only [hx, Bool.not_true, Bool.false_eq_true, if_false, if_true, Option.bind_eq_some_iff,
            Option.map_eq_some_iff] at h hr
          obtain ⟨a, haa, b, hb, rfl⟩ := h
          have hf : ∀ body, fieldWire e m t v body = body := by intro body; simp [fieldWire, h3, h4]
          have hr' := offsetIn_within fs i p b hb _ _ _ vs q hq hv.2 hr.2.2
          have := InFields.later (e := e) (names := []) (m := m) (t := t) (v := v) (Bool.not_eq_true _ ▸ hs) hx (by rw [ha]; exact hr')
          rw [hf, wire_size t a haa _ _ _ _ v (hv.1 hx hna) (hr.2.1.2.2.2.2.2 hna)] at this
          exact this
        · simp only [hx, Bool.not_false, Bool.false_eq_true, if_false, if_true] at h hr
          exact .afterIgnored (.inr ⟨Bool.not_eq_true _ ▸ hx, h5⟩) (offsetIn_within fs i p k h _ _ _ vs q hq hv.2 hr.2.2)
end

end Verif
