import Verif.Props.Custom
/-!
# C95: positions of a type with methods, one by one

The positions in which the methods are called and the value comes back, those in which they are not called, and a concrete type.
-/
namespace Verif.Props
open Spec

/-- The methods write `v` as `bs` and read `bs` as `v`. -/
def Lawful (e : Encoding) (f : Val → EM Unit) (g : DM Val) (v : Val) (bs : Bytes) : Prop :=
  ∀ o, (e = .borsh → o = .le) → MethodWrites e o (f v) bs ∧ MethodReads e o g bs v

/-- The value is written as `bs`, and `bs` is read back as the value. -/
def Trip (e : Encoding) (c : CTy) (v : Val) (bs : Bytes) : Prop :=
  marshalC e c v = (.ok (), bs) ∧ unmarshalC e c c.erase.zero bs = .ok v

theorem trip_of {e : Encoding} (he : e.valid = true) {c : CTy} {v : Val} {bs : Bytes} (hw : Written e c .le none v bs)
    (hr : ReadAs e c .le none bs v) : Trip e c v bs := by
  refine ⟨C95_encode_partial e he c v bs hw, ?_⟩
  have := (C95_decode_partial e he c bs [] v hr).1
  rwa [List.append_nil] at this

theorem concat_map {α : Type} {P : α → Bytes → Prop} {g : α → Bytes} : (xs : List α) → (∀ x ∈ xs, P x (g x)) →
    Concat P xs (xs.flatMap g)
  | [], _ => rfl
  | x :: xs, h => by
    simp only [Concat, List.flatMap_cons]
    exact ⟨_, _, rfl, h x (by simp), concat_map xs fun y hy => h y (by simp [hy])⟩

/-- **C95** A type `T` with `MarshalWithEncoder` on the value: alone, behind a pointer, as element of arrays and slices (unless its kind
is an unsigned integer), and as map value (`k` any key type), the bytes are those of the method, one after the other, and all comes
back. -/
theorem C95_positions_partial (e : Encoding) (he : e.valid = true) (under : CTy) (f : Val → EM Unit) (g : Val → DM Val)
    (hk : under.erase.uintKind = none) (xs : List Val) (w : Val → Bytes)
    (h : ∀ x ∈ xs, Lawful e f (g under.erase.zero) x (w x)) :
    let T := CTy.user under (.value f) (some g)
    (∀ x ∈ xs, Trip e T x (w x) ∧ Trip e (.ptr T) (.ptr (some x)) (w x)) ∧
    Trip e (.array xs.length T) (.arr xs) (xs.flatMap w) ∧
    (xs ≠ [] → xs.length ≤ readMax e → xs.length ≤ (xs.flatMap w).length →
      Trip e (.slice T) (.seq (some xs)) (lenPrefix e xs.length ++ xs.flatMap w)) ∧
    (∀ (k : Ty) (key : Val), Encodable e k none key → Returns e k false key → copy e k key = key → k.keyEq key key = true →
      (e = .borsh → orderedKey k = true) → ∀ x ∈ xs,
      Trip e (.map k T) (.map (some [(key, x)])) (lenPrefix e 1 ++ wire e k .le false key ++ w x)) := by
  intro T
  have hw : ∀ x ∈ xs, Written e T .le none x (w x) := fun x hx => by
    simp only [T, Written]; exact (h x hx .le fun _ => rfl).1
  have hr : ∀ x ∈ xs, ReadAs e T .le none (w x) x := fun x hx => by
    simp only [T, ReadAs]; exact (h x hx .le fun _ => rfl).2
  have hT : T.erase.uintKind = none := hk
  have hmax : readMax e ≤ maxLen e ∨ e = .other := by cases e <;> simp [readMax, maxLen]
  have hmax : readMax e ≤ maxLen e := hmax.resolve_right (by rintro rfl; cases he)
  refine ⟨fun x hx => ⟨trip_of he (hw x hx) (hr x hx), trip_of he ?_ ?_⟩, trip_of he ?_ ?_, fun h0 h1 h2 => trip_of he ?_ ?_,
    fun k key k1 k2 k3 k4 k5 x hx => trip_of he ?_ ?_⟩
  · simp only [Written, T, CTy.method]
    exact (h x hx .le fun _ => rfl).1
  · simp only [ReadAs]
    exact ⟨x, rfl, hr x hx⟩
  · simp only [Written, Elems, hT]
    exact ⟨trivial, concat_map xs hw⟩
  · simp only [ReadAs, Elems, hT]
    exact ⟨xs, rfl, (fun hh => by cases hh), concat_map (P := fun x b => ReadAs e T .le none b x) xs hr, rfl⟩
  · simp only [Written, Elems, hT, Option.getD_some, Option.isSome_none, Bool.false_eq_true, if_false]
    exact ⟨by omega, _, rfl, concat_map xs hw⟩
  · simp only [ReadAs, Elems, hT, Option.isSome_none, Bool.false_eq_true, if_false]
    exact ⟨xs, _, h1, rfl, h2, concat_map (P := fun x b => ReadAs e T .le none b x) xs hr, by rw [if_neg (fun hh => h0 hh.2)]⟩
  · have hent : entries e k [(key, x)] = [(key, x)] := List.perm_singleton.mp (entries_perm e k _)
    simp only [Written, Option.getD_some, List.length_singleton, hent, Concat]
    have h1 : 1 ≤ maxLen e := by cases e <;> simp_all [maxLen, Encoding.valid]
    refine ⟨h1, k5, by simp, by simpa using ⟨k4, k1⟩, _, List.append_assoc _ _ _, _, [], by rw [List.append_nil], ⟨_, rfl, hw x hx⟩, rfl⟩
  · simp only [ReadAs]
    have h1 : 1 ≤ readMax e := by cases e <;> simp_all [readMax, Encoding.valid]
    refine ⟨[(key, x)], wire e k .le false key ++ w x, h1, List.append_assoc _ _ _, by simp, ?_, by simp⟩
    simp only [Concat]
    exact ⟨_, [], (List.append_nil _).symm, ⟨_, _, rfl, ⟨key, k1, k2, rfl, k3.symm⟩, hr x hx⟩, rfl⟩

/-- **C95** The same behind a pointer for a method with pointer receiver. -/
theorem C95_behind_pointer_partial (e : Encoding) (he : e.valid = true) (under : CTy) (f : Option Val → EM Unit) (g : Val → DM Val)
    (x : Val) (bs : Bytes) (h : Lawful e (fun x => f (some x)) (g under.erase.zero) x bs) :
    Trip e (.ptr (.user under (.pointer f) (some g))) (.ptr (some x)) bs := by
  refine trip_of he ?_ ?_
  · simp only [Written, CTy.method]
    exact (h .le fun _ => rfl).1
  · simp only [ReadAs]
    exact ⟨x, rfl, (h .le fun _ => rfl).2⟩

/-- A field without tags. -/
theorem written_cons {e : Encoding} {name : Bytes} {c : CTy} {fs : CFields} {v : Val} {vs : List Val} {b rest : Bytes}
    (h : Written e c .le none v b) (hr : WrittenFields e fs [] vs rest) :
    WrittenFields e (.cons { name } c fs) [] (v :: vs) (b ++ rest) := by
  unfold WrittenFields
  refine (?_ : ∃ body rest', b ++ rest = _ ∧ _ ∧ _)
  exact ⟨b, rest, by simp [fieldWire], fun _ => h, hr⟩

theorem read_cons {e : Encoding} {name : Bytes} {c : CTy} {fs : CFields} {v : Val} {vs : List Val} {b rest : Bytes}
    (hd : e = .borsh → c.direct = none) (h : ReadAs e c .le none b v) (hr : ReadFields e fs [] false rest vs) :
    ReadFields e (.cons { name } c fs) [] false (b ++ rest) (v :: vs) := by
  unfold ReadFields
  refine ⟨fun h => h, ?_⟩
  rw [if_pos rfl]
  refine ⟨b, rest, rfl, (fun hh => by cases hh), ?_⟩
  have : (if e = .borsh then c.direct else none) = none := by
    split
    · exact hd (by assumption)
    · rfl
  rw [this]
  refine ⟨fun _ => rfl, ?_, [], rfl, hr⟩
  unfold ReadField
  simp only [Bool.false_eq_true, and_false, if_false]
  exact h

theorem read_cons_user {e : Encoding} {name : Bytes} {under : CTy} {m : Method} {g : Val → DM Val} {fs : CFields} {v : Val}
    {vs : List Val} {b rest : Bytes} (h : MethodReads e .le (g under.erase.zero) b v) (hr : ReadFields e fs [] false rest vs) :
    ReadFields e (.cons { name } (.user under m (some g)) fs) [] false (b ++ rest) (v :: vs) := by
  by_cases hb : e = .borsh
  · unfold ReadFields
    refine ⟨fun h => h, ?_⟩
    rw [if_pos rfl]
    refine ⟨b, rest, rfl, (fun hh => by cases hh), ?_⟩
    rw [if_pos hb]
    exact ⟨⟨v, h, rfl⟩, hr⟩
  · exact read_cons (fun hh => absurd hh hb) (by simp only [ReadAs]; exact h) hr

/-- **C95** As a struct field without tags, with any fields of other types around it. -/
theorem C95_field_partial (e : Encoding) (he : e.valid = true) (under : CTy) (f : Val → EM Unit) (g : Val → DM Val)
    (x : Val) (bs : Bytes) (h : Lawful e f (g under.erase.zero) x bs) (na nb nc : Bytes) (a b : Ty) (va vb : Val)
    (ha : Encodable e a none va ∧ Returns e a false va ∧ copy e a va = va ∧ a.directLib = none)
    (hb : Encodable e b none vb ∧ Returns e b false vb ∧ copy e b vb = vb ∧ b.directLib = none) :
    Trip e (.struct (.cons { name := na } (.plain a) (.cons { name := nb } (.user under (.value f) (some g))
      (.cons { name := nc } (.plain b) .nil)))) (.struct [va, x, vb]) (wire e a .le false va ++ (bs ++ wire e b .le false vb)) := by
  have hE : ∀ fs : CFields, (CFields.cons { name := na } (.plain a) fs).isEnum = false := by
    intro fs; cases a <;> rfl
  have hdir : ∀ t : Ty, t.directLib = none → (CTy.plain t).direct = none := by
    intro t ht
    cases t <;> try rfl
    · cases ht
    · rename_i t
      cases t <;> first | rfl | cases ht
  have hW : ∀ t v, Encodable e t none v → Written e (.plain t) .le none v (wire e t .le false v) := fun t v hh => by
    simp only [Written]; exact ⟨hh, rfl⟩
  have hR : ∀ t v, Encodable e t none v ∧ Returns e t false v ∧ copy e t v = v ∧ t.directLib = none →
      ReadAs e (.plain t) .le none (wire e t .le false v) v := fun t v hh => by
    simp only [ReadAs]; exact ⟨v, hh.1, hh.2.1, rfl, hh.2.2.1.symm⟩
  refine trip_of he ?_ ?_
  · simp only [Written, hE, Bool.false_eq_true, and_false, if_false]
    refine written_cons (hW a va ha.1) (written_cons (by simp only [Written]; exact (h .le fun _ => rfl).1) ?_)
    have := written_cons (e := e) (name := nc) (rest := []) (vs := []) (hW b vb hb.1)
      (show WrittenFields e .nil [] [] [] by simp only [WrittenFields]; exact ⟨trivial, trivial⟩)
    rwa [List.append_nil] at this
  · simp only [ReadAs, hE, Bool.false_eq_true, and_false, if_false]
    refine ⟨_, read_cons (fun _ => hdir a ha.2.2.2) (hR a va ha) (read_cons_user (h .le fun _ => rfl).2 ?_), rfl⟩
    have := read_cons (e := e) (name := nc) (rest := []) (vs := []) (fun _ => hdir b hb.2.2.2) (hR b vb hb)
      (show ReadFields e .nil [] false [] [] by simp only [ReadFields]; exact ⟨trivial, trivial⟩)
    rwa [List.append_nil] at this

/-- In Borsh a field is read by the method of its type at once; it is the same method. -/
theorem direct_of_readAs {c : CTy} {b : Bytes} {r : Val} {g : Val → DM Val} {z : Val} {isPtr : Bool}
    (hd : c.direct = some (g, z, isPtr)) (h : ReadAs .borsh c .le none b r) :
    ∃ x, MethodReads .borsh .le (g z) b x ∧ r = if isPtr then .ptr (some x) else x := by
  have lib : ∀ (l : Lib) (b : Bytes) (x : Val), ReadAs .borsh (.plain (.lib l)) .le none b x →
      MethodReads .borsh .le (unmarshalLib l l.zero) b x := by
    intro l b x h
    have := decC_r (e := .borsh) rfl (.plain (.lib l)) {} b x (fun _ => rfl) h
    simp only [decC, CTy.erase, Ty.zero, decCore] at this
    exact this.takes fun _ => rfl
  have one : ∀ (c : CTy) (b : Bytes) (x : Val) (u : Val → DM Val), c.reader = some u → ReadAs .borsh c .le none b x →
      MethodReads .borsh .le (u c.erase.zero) b x := by
    intro c b x u hu h
    cases c with
    | user c m u' =>
      simp only [CTy.reader] at hu
      subst hu
      simpa only [ReadAs, CTy.erase] using h
    | plain t =>
      cases t <;> simp only [CTy.reader, reduceCtorEq, Option.some.injEq] at hu
      subst hu
      exact lib _ b x h
    | _ => cases hu
  have at_once : ∀ c : CTy, c.reader.map (fun u => (u, c.erase.zero, false)) = some (g, z, isPtr) → ReadAs .borsh c .le none b r →
      ∃ x, MethodReads .borsh .le (g z) b x ∧ r = if isPtr then .ptr (some x) else x := by
    intro c hd h
    cases hu : c.reader with
    | none => rw [hu] at hd; cases hd
    | some u =>
      rw [hu] at hd
      simp only [Option.map_some, Option.some.injEq, Prod.mk.injEq] at hd
      obtain ⟨rfl, rfl, rfl⟩ := hd
      exact ⟨r, one c b r u hu h, rfl⟩
  cases c with
  | ptr c =>
    simp only [CTy.direct] at hd
    cases hu : c.reader with
    | none => rw [hu] at hd; cases hd
    | some u =>
      rw [hu] at hd
      simp only [Option.map_some, Option.some.injEq, Prod.mk.injEq] at hd
      obtain ⟨rfl, rfl, rfl⟩ := hd
      simp only [ReadAs] at h
      obtain ⟨x, rfl, h⟩ := h
      exact ⟨x, one c b x u hu h, rfl⟩
  | plain t =>
    cases t with
    | ptr t =>
      cases t with
      | lib l =>
        simp only [CTy.direct, Option.some.injEq, Prod.mk.injEq] at hd
        obtain ⟨rfl, rfl, rfl⟩ := hd
        simp only [ReadAs, ReadPlain] at h
        obtain ⟨v, h1, h2, h3, rfl⟩ := h
        cases v with
        | ptr p =>
          cases p with
          | none => simp [Returns] at h2
          | some x =>
            refine ⟨copy .borsh (.lib l) x, lib l b _ ?_, by simp [copy]⟩
            simp only [ReadAs, ReadPlain]
            refine ⟨x, ?_, ?_, ?_, rfl⟩
            · simpa [Encodable] using h1
            · simpa [Returns] using h2
            · rw [h3]; simp [wire]
        | _ => simp [Encodable] at h1
      | _ => cases hd
    | _ => exact at_once _ (by simpa only [CTy.direct] using hd) h
  | _ => exact at_once _ (by simpa only [CTy.direct] using hd) h

/-- A field without tags, of any type. -/
theorem read_cons_any {e : Encoding} {name : Bytes} {c : CTy} {fs : CFields} {v : Val} {vs : List Val} {b rest : Bytes}
    (h : ReadAs e c .le none b v) (hr : ReadFields e fs [] false rest vs) :
    ReadFields e (.cons { name } c fs) [] false (b ++ rest) (v :: vs) := by
  cases hd : c.direct with
  | none => exact read_cons (fun _ => hd) h hr
  | some p =>
    by_cases hb : e = .borsh
    · subst hb
      obtain ⟨g, z, isPtr⟩ := p
      unfold ReadFields
      refine ⟨fun h => h, ?_⟩
      rw [if_pos rfl]
      refine ⟨b, rest, rfl, (fun hh => by cases hh), ?_⟩
      rw [if_pos rfl, hd]
      exact ⟨direct_of_readAs hd h, hr⟩
    · exact read_cons (fun hh => absurd hh hb) h hr

/-! ### values made of such values -/

/-- Written as `bs`, and `bs` is read as the value, at any place without tags. -/
def Sound (e : Encoding) (c : CTy) (v : Val) (bs : Bytes) : Prop := Written e c .le none v bs ∧ ReadAs e c .le none bs v

theorem Sound.trip {e : Encoding} (he : e.valid = true) {c : CTy} {v : Val} {bs : Bytes} (h : Sound e c v bs) : Trip e c v bs :=
  trip_of he h.1 h.2

/-- One key per entry, in the order in which they are written. -/
def Keys (e : Encoding) (k : Ty) (m : List (Val × Val)) : Prop :=
  entries e k m = m ∧ (e = .borsh → orderedKey k = true) ∧ m.Pairwise (fun x y => k.keyEq x.1 y.1 = false) ∧
  ∀ x ∈ m, Encodable e k none x.1 ∧ Returns e k false x.1 ∧ copy e k x.1 = x.1 ∧ k.keyEq x.1 x.1 = true

/-- **C95** Values made of sound values are sound, and so come back: this is true of values of types with agreeing methods (on the value,
or behind a pointer on either), of values of the main model that come back, and of pointers, arrays, slices, maps and struct fields
(without tags) of them.  So it is true of everything put together from these. -/
theorem C95_closed_partial (e : Encoding) (he : e.valid = true) :
    (∀ c v bs, Sound e c v bs → Trip e c v bs) ∧
    (∀ under f g v bs, Lawful e f (g under.erase.zero) v bs →
      Sound e (.user under (.value f) (some g)) v bs ∧ Sound e (.ptr (.user under (.value f) (some g))) (.ptr (some v)) bs) ∧
    (∀ under f g v bs, Lawful e (fun x => f (some x)) (g under.erase.zero) v bs →
      Sound e (.ptr (.user under (.pointer f) (some g))) (.ptr (some v)) bs) ∧
    (∀ t v, Encodable e t none v → Returns e t false v → copy e t v = v → Sound e (.plain t) v (wire e t .le false v)) ∧
    (∀ c v bs, c.method matches .none → Sound e c v bs → Sound e (.ptr c) (.ptr (some v)) bs) ∧
    (∀ c xs w, c.erase.uintKind = none → (∀ x ∈ xs, Sound e c x (w x)) → Sound e (.array xs.length c) (.arr xs) (xs.flatMap w)) ∧
    (∀ c xs w, c.erase.uintKind = none → xs ≠ [] → xs.length ≤ readMax e → xs.length ≤ (xs.flatMap w).length →
      (∀ x ∈ xs, Sound e c x (w x)) → Sound e (.slice c) (.seq (some xs)) (lenPrefix e xs.length ++ xs.flatMap w)) ∧
    (∀ k c m (w : Val → Bytes), Keys e k m → m ≠ [] → m.length ≤ readMax e → (∀ x ∈ m, Sound e c x.2 (w x.2)) →
      Sound e (.map k c) (.map (some m)) (lenPrefix e m.length ++ m.flatMap fun x => wire e k .le false x.1 ++ w x.2)) ∧
    (∀ (l : List (Bytes × CTy × Val × Bytes)), (∀ x ∈ l, Sound e x.2.1 x.2.2.1 x.2.2.2) →
      Sound e (.struct (l.foldr (fun x fs => .cons { name := x.1 } x.2.1 fs) .nil)) (.struct (l.map fun x => x.2.2.1))
        (l.flatMap fun x => x.2.2.2)) := by
  have hmax : readMax e ≤ maxLen e ∨ e = .other := by cases e <;> simp [readMax, maxLen]
  have hmax : readMax e ≤ maxLen e := hmax.resolve_right (by rintro rfl; cases he)
  refine ⟨fun c v bs h => h.trip he, fun under f g v bs h => ⟨⟨?_, ?_⟩, ⟨?_, ?_⟩⟩, fun under f g v bs h => ⟨?_, ?_⟩,
    fun t v h1 h2 h3 => ⟨?_, ?_⟩, fun c v bs hm h => ⟨?_, ?_⟩, fun c xs w hk h => ⟨?_, ?_⟩, fun c xs w hk h0 h1 h2 h => ⟨?_, ?_⟩,
    fun k c m w hk h0 h1 h => ⟨?_, ?_⟩, fun l h => ⟨?_, ?_⟩⟩
  · simp only [Written]; exact (h .le fun _ => rfl).1
  · simp only [ReadAs]; exact (h .le fun _ => rfl).2
  · simp only [Written, CTy.method]; exact (h .le fun _ => rfl).1
  · simp only [ReadAs]; exact ⟨v, rfl, (h .le fun _ => rfl).2⟩
  · simp only [Written, CTy.method]; exact (h .le fun _ => rfl).1
  · simp only [ReadAs]; exact ⟨v, rfl, (h .le fun _ => rfl).2⟩
  · simp only [Written]; exact ⟨h1, rfl⟩
  · simp only [ReadAs]; exact ⟨v, h1, h2, rfl, h3.symm⟩
  · simp only [Written]
    cases hc : c.method with
    | none =>
      simp only
      split <;> exact h.1
    | value f => rw [hc] at hm; cases hm
    | pointer f => rw [hc] at hm; cases hm
  · simp only [ReadAs]; exact ⟨v, rfl, h.2⟩
  · simp only [Written, Elems, hk]
    exact ⟨trivial, concat_map xs fun x hx => (h x hx).1⟩
  · simp only [ReadAs, Elems, hk]
    exact ⟨xs, rfl, (fun hh => by cases hh), concat_map (P := fun x b => ReadAs e c .le none b x) xs fun x hx => (h x hx).2, rfl⟩
  · simp only [Written, Elems, hk, Option.getD_some, Option.isSome_none, Bool.false_eq_true, if_false]
    exact ⟨by omega, _, rfl, concat_map xs fun x hx => (h x hx).1⟩
  · simp only [ReadAs, Elems, hk, Option.isSome_none, Bool.false_eq_true, if_false]
    exact ⟨xs, _, h1, rfl, h2, concat_map (P := fun x b => ReadAs e c .le none b x) xs fun x hx => (h x hx).2,
      by rw [if_neg (fun hh => h0 hh.2)]⟩
  · obtain ⟨k1, k2, k3, k4⟩ := hk
    simp only [Written, Option.getD_some, k1]
    exact ⟨by omega, k2, k3, fun x hx => ⟨(k4 x hx).2.2.2, (k4 x hx).1⟩, _, rfl,
      concat_map m fun x hx => ⟨_, rfl, (h x hx).1⟩⟩
  · obtain ⟨k1, k2, k3, k4⟩ := hk
    simp only [ReadAs]
    refine ⟨m, _, h1, rfl, k3, concat_map m fun x hx => ⟨_, _, rfl, ?_, (h x hx).2⟩, by rw [if_neg h0]⟩
    obtain ⟨k5, k6, k7, -⟩ := k4 x hx
    exact ⟨x.1, k5, k6, rfl, k7.symm⟩
  · have hE : (l.foldr (fun x fs => CFields.cons { name := x.1 } x.2.1 fs) .nil).isEnum = false := by
      cases l with
      | nil => rfl
      | cons x l =>
        simp only [List.foldr_cons]
        generalize x.2.1 = c
        cases c <;> try rfl
        rename_i t
        cases t <;> rfl
    simp only [Written, hE, Bool.false_eq_true, and_false, if_false]
    clear hE
    induction l with
    | nil => simp [WrittenFields]
    | cons x l ih =>
      simp only [List.foldr_cons, List.map_cons, List.flatMap_cons]
      exact written_cons (h x (by simp)).1 (ih fun y hy => h y (by simp [hy]))
  · have hE : (l.foldr (fun x fs => CFields.cons { name := x.1 } x.2.1 fs) .nil).isEnum = false := by
      cases l with
      | nil => rfl
      | cons x l =>
        simp only [List.foldr_cons]
        generalize x.2.1 = c
        cases c <;> try rfl
        rename_i t
        cases t <;> rfl
    simp only [ReadAs, hE, Bool.false_eq_true, and_false, if_false]
    refine ⟨_, ?_, rfl⟩
    clear hE
    induction l with
    | nil => simp [ReadFields]
    | cons x l ih =>
      simp only [List.foldr_cons, List.map_cons, List.flatMap_cons]
      exact read_cons_any (h x (by simp)).2 (ih fun y hy => h y (by simp [hy]))

/-- **C95** An optional pointer to a value that comes back, in Bin and CompactU16: a flag, then the value; nil is the other flag. -/
theorem C95_optional_pointer_partial (e : Encoding) (he : e.valid = true) (hb : e ≠ .borsh) (name : Bytes) (c : CTy) (x : Val)
    (bs : Bytes) (h : Sound e (.ptr c) (.ptr (some x)) bs) :
    let S := CTy.struct (.cons { name, tag := { option := true } } (.ptr c) .nil)
    Trip e S (.struct [.ptr (some x)]) (flag e true ++ bs) ∧ Trip e S (.struct [.ptr none]) (flag e false) := by
  intro S
  have hE : ∀ c, (CFields.cons { name, tag := { option := true } } (CTy.ptr c) .nil).isEnum = false := fun c => rfl
  have hz : ∀ p, (CTy.ptr c).erase.isZero (.ptr p) = p.isNone := fun p => rfl
  refine ⟨trip_of he ?_ ?_, trip_of he ?_ ?_⟩
  · simp only [S, Written, hE, Bool.false_eq_true, and_false, if_false, WrittenFields, announce, if_true]
    refine ⟨bs, [], by simp [fieldWire, hz, hb], fun _ => h.1, by simp⟩
  · simp only [S, ReadAs, hE, Bool.false_eq_true, and_false, if_false, hb]
    refine ⟨_, ?_, rfl⟩
    unfold ReadFields
    refine ⟨fun h => h, ?_⟩
    rw [if_pos rfl]
    refine ⟨flag e true ++ bs, [], by simp, (fun hh => by cases hh), ?_⟩
    rw [if_neg hb]
    refine ⟨fun hh => absurd hh hb, ?_, [], rfl, rfl, rfl⟩
    unfold ReadField
    rw [if_pos rfl]
    refine ⟨rfl, Or.inr ⟨bs, rfl, ?_⟩⟩
    rw [if_neg (fun hh => hb hh.1)]
    exact h.2
  · simp only [S, Written, hE, Bool.false_eq_true, and_false, if_false, WrittenFields, announce, if_true]
    refine ⟨[], [], by simp [fieldWire, hz], fun hh => absurd ⟨hz none, Or.inl rfl⟩ hh, by simp⟩
  · simp only [S, ReadAs, hE, Bool.false_eq_true, and_false, if_false, hb]
    refine ⟨_, ?_, rfl⟩
    unfold ReadFields
    refine ⟨fun h => h, ?_⟩
    rw [if_pos rfl]
    refine ⟨flag e false, [], by simp, (fun hh => by cases hh), ?_⟩
    rw [if_neg hb]
    refine ⟨fun hh => absurd hh hb, ?_, [], rfl, rfl, rfl⟩
    unfold ReadField
    rw [if_pos rfl]
    exact ⟨rfl, Or.inl ⟨rfl, rfl⟩⟩

/-! ### what goes wrong -/

/-- **C95** The payload of a Borsh enum is written without the methods of its type. -/
theorem C95_payload (m0 m1 : FieldMeta) (h0 : m0.tag.isEnum = true) (under : CTy) (m m' : Method) (u u' : Option (Val → DM Val))
    (fs : CFields) (v : Val) (vs : List Val) :
    marshalC .borsh (.struct (.cons m0 (.plain .borshEnum) (.cons m1 (.user under m u) fs))) (.struct (.uint 0 :: v :: vs)) =
    marshalC .borsh (.struct (.cons m0 (.plain .borshEnum) (.cons m1 (.user under m' u') fs))) (.struct (.uint 0 :: v :: vs)) := by
  have h : ∀ o, encC .borsh (.struct (.cons m0 (.plain .borshEnum) (.cons m1 (.user under m u) fs))) o (.struct (.uint 0 :: v :: vs)) =
      encC .borsh (.struct (.cons m0 (.plain .borshEnum) (.cons m1 (.user under m' u') fs))) o (.struct (.uint 0 :: v :: vs)) := by
    intro o
    simp only [encC, encStructC, CFields.isEnum, h0, CFields.length, encNthC, encPayloadC]
    rfl
  have h' : ∀ c c' v, (∀ o, encC .borsh c o v = encC .borsh c' o v) → marshalC .borsh c v = marshalC .borsh c' v := by
    intro c c' v h
    have : encodeC c v (Enc.new .borsh) = encodeC c' v (Enc.new .borsh) := by
      unfold encodeC
      rw [M.bind_ok (M.get_apply _), M.bind_ok (M.get_apply _)]
      rw [show (Enc.new .borsh).enc = .borsh from rfl, h]
    unfold marshalC
    rw [this]
  exact h' _ _ _ h

/-- **C95** Decoding an optional field whose type has `UnmarshalWithDecoder` panics in Bin and CompactU16, whatever the input; Borsh
reads the value as if the field were not optional. -/
theorem C95_optional (e : Encoding) (he : e.valid = true) (name : Bytes) (o : Order) (under : CTy) (m : Method) (g : Val → DM Val)
    (old : Val) (b : Bytes) :
    unmarshalC e (.struct (.cons { name, tag := { option := true, order := o } } (.user under m (some g)) .nil)) (.struct [old]) b =
      if e = .borsh then unmarshalC e (.struct (.cons { name } (.user under m (some g)) .nil)) (.struct [old]) b else .panic := by
  unfold unmarshalC decodeC
  rw [M.bind_ok (M.get_apply _), M.bind_ok (M.get_apply _)]
  have hne : e ≠ .other := by rintro rfl; cases he
  rw [show (Dec.new b e).enc = e from rfl, if_neg hne]
  by_cases hb : e = .borsh
  · subst hb
    rfl
  · rw [if_neg hb]
    simp only [decC, decStructC, hb, false_and, if_false, decFieldsC, Val.fields]
    rfl

/-- **C95** Borsh reads no flag for an optional pointer to such a type either, though it writes one. -/
theorem C95_optional_pointer_borsh (name : Bytes) (under : CTy) (m : Method) (g : Val → DM Val) (old : Val) (b : Bytes) :
    unmarshalC .borsh (.struct (.cons { name, tag := { option := true } } (.ptr (.user under m (some g))) .nil)) (.struct [old]) b =
    unmarshalC .borsh (.struct (.cons { name } (.ptr (.user under m (some g))) .nil)) (.struct [old]) b := rfl

/-- **C95** A nil pointer to a type with `MarshalWithEncoder` on the value: Borsh writes nothing (so the value cannot be read back), the
others panic. -/
theorem C95_nil (e : Encoding) (he : e.valid = true) (c : CTy) (f : Val → EM Unit) (h : c.method = .value f) :
    marshalC e (.ptr c) (.ptr none) = if e = .borsh then (.ok (), []) else (.panic, []) := by
  unfold marshalC encodeC
  rw [M.bind_ok (M.get_apply _)]
  have hne : e ≠ .other := by rintro rfl; cases he
  rw [show (Enc.new e).enc = e from rfl, if_neg hne]
  simp only [encC, h]
  by_cases hb : e = .borsh
  · subst hb; rfl
  · simp only [hb, if_false]
    rfl

/-- **C95** A struct that embeds a type with methods is written and read by these alone: its other fields are neither written nor read. -/
theorem C95_embedded (e : Encoding) (fs : CFields) (i : Nat) (under : CTy) (f : Val → EM Unit) (g : Val → DM Val) (vs : List Val)
    (x : Val) (hx : vs[i]? = some x) (b : Bytes) :
    let T := CTy.user under (.value f) (some g)
    marshalC e (.embedding fs i T) (.struct vs) = marshalC e T x ∧
    unmarshalC e (.embedding fs i T) (.struct vs) b =
      match unmarshalC e T x b with
      | .ok y => .ok (.struct (vs.set i y))
      | .err a => .err a
      | .panic => .panic := by
  intro T
  constructor
  · have : encodeC (.embedding fs i T) (.struct vs) = encodeC T x := by
      unfold encodeC CTy.embedding
      simp only [T, CTy.method, Method.promoted, encC, hx, Option.map_some, Option.getD_some]
    unfold marshalC
    rw [this]
  · unfold unmarshalC decodeC CTy.embedding
    rw [M.bind_ok (M.get_apply _), M.bind_ok (M.get_apply _)]
    by_cases ho : (Dec.new b e).enc = .other
    · rw [if_pos ho, if_pos ho]; rfl
    · rw [if_neg ho, if_neg ho]
      simp only [T, CTy.reader, Option.map_some, decC, hx, setCurD, M.bind_apply, M.modify_apply]
      generalize g x _ = r
      rcases r with ⟨_ | _ | _, d⟩ <;> rfl

/-- **C95** With a pointer receiver the same is true of a pointer to the struct; the struct itself is written field by field. -/
theorem C95_embedded_pointer (e : Encoding) (fs : CFields) (i : Nat) (under : CTy) (f : Option Val → EM Unit) (u : Option (Val → DM Val))
    (vs : List Val) (x : Val) (hx : vs[i]? = some x) :
    let T := CTy.user under (.pointer f) u
    marshalC e (.ptr (.embedding fs i T)) (.ptr (some (.struct vs))) = marshalC e (.ptr T) (.ptr (some x)) ∧
    marshalC e (.embedding fs i T) (.struct vs) = marshalC e (.struct fs) (.struct vs) := by
  intro T
  constructor
  · have : encodeC (.ptr (.embedding fs i T)) (.ptr (some (.struct vs))) = encodeC (.ptr T) (.ptr (some x)) := by
      unfold encodeC CTy.embedding
      simp only [T, CTy.method, Method.promoted, encC, hx, Option.map_some, Option.getD_some]
    unfold marshalC
    rw [this]
  · have : encodeC (.embedding fs i T) (.struct vs) = encodeC (.struct fs) (.struct vs) := by
      unfold encodeC CTy.embedding
      simp only [T, CTy.method, Method.promoted, encC]
    unfold marshalC
    rw [this]

/-- On any encoder with this encoding and order whose writer does not fail, `w` hands `bs` to the writer and fails with `a`. -/
def MethodFails (e : Encoding) (o : Order) (w : EM Unit) (bs : Bytes) (a : Err) : Prop :=
  ∀ s : Enc, s.enc = e → (∀ l c, s.sink l c = true) → s.cur = some o →
    ∃ (pieces : List Bytes) (c : Option Order), pieces.flatten = bs ∧
      w s = (.err a, { s with log := s.log ++ pieces, count := s.count + pieces.flatten.length, cur := c })

theorem forIndex_fails {e : Encoding} {f : Val → EM Unit} {P : Val → Bytes → Prop} (x : Val) (ys : List Val) (b : Bytes) (a : Err)
    (hx : ∀ s : Enc, s.enc = e → s.NoFail → ∃ cs c, cs.flatten = b ∧ f x s = (.err a, s.left cs c)) : (xs : List Val) → (bs : Bytes) →
    (∀ y ∈ xs, ∀ b, P y b → EW e (f y) b) → Concat P xs bs →
    ∀ s : Enc, s.enc = e → s.NoFail →
      ∃ cs c, cs.flatten = bs ++ b ∧ forIndexM f (xs.length + (1 + ys.length)) (xs ++ x :: ys) s = (.err a, s.left cs c)
  | [], bs, _, h, s, he, hf => by
    simp only [Concat] at h
    subst h
    obtain ⟨cs, c, h1, h2⟩ := hx s he hf
    refine ⟨cs, c, h1, ?_⟩
    rw [show ([] : List Val).length + (1 + ys.length) = ys.length + 1 by simp; omega]
    simp only [List.nil_append, forIndexM]
    rw [M.bind_apply, h2]
  | y :: xs, bs, hp, h, s, he, hf => by
    simp only [Concat] at h
    obtain ⟨b1, rest, rfl, h1, h2⟩ := h
    obtain ⟨c1, k1, e1, w1⟩ := hp y (by simp) b1 h1 s he hf
    obtain ⟨c2, k2, e2, w2⟩ := forIndex_fails x ys b a hx xs rest (fun z hz => hp z (by simp [hz])) h2 (s.left c1 k1) he (hf.left _ _)
    refine ⟨c1 ++ c2, k2, by rw [List.flatten_append, e1, e2, List.append_assoc], ?_⟩
    rw [show (y :: xs).length + (1 + ys.length) = xs.length + (1 + ys.length) + 1 by simp; omega]
    simp only [List.cons_append, forIndexM]
    rw [M.bind_ok w1, w2, Enc.left_left]

/-- **C95** When the method fails, encoding fails with its error; what was written before, and by the method, has been written, and
nothing after it. -/
theorem C95_failure (e : Encoding) (he : e.valid = true) (under : CTy) (f : Val → EM Unit) (u : Option (Val → DM Val))
    (hk : under.erase.uintKind = none) (xs ys : List Val) (x : Val) (b : Bytes) (w : Val → Bytes) (a : Err)
    (h : ∀ y ∈ xs, MethodWrites e .le (f y) (w y)) (hx : MethodFails e .le (f x) b a) :
    let T := CTy.user under (.value f) u
    marshalC e T x = (.err a, b) ∧
    marshalC e (.array (xs.length + (1 + ys.length)) T) (.arr (xs ++ x :: ys)) = (.err a, xs.flatMap w ++ b) := by
  intro T
  have hT : T.erase.uintKind = none := hk
  have hne : (Enc.new e).enc ≠ .other := by change e ≠ .other; rintro rfl; cases he
  have hxs : ∀ s : Enc, s.enc = e → s.NoFail → ∃ cs c, cs.flatten = b ∧ (setCurE .le >>= fun _ => f x) s = (.err a, s.left cs c) := by
    intro s h1 h2
    obtain ⟨cs, c, h3, h4⟩ := hx { s with cur := some .le } h1 h2 rfl
    refine ⟨cs, c, h3, ?_⟩
    rw [M.bind_apply]
    simp only [setCurE, M.modify_apply, h4]
    rfl
  have hs := hxs (Enc.new e) rfl (fun _ _ => rfl)
  constructor
  · obtain ⟨cs, c, h1, h2⟩ := hs
    have h3 : encodeC T x (Enc.new e) = (.err a, (Enc.new e).left cs c) := by
      unfold encodeC
      rw [M.bind_ok (M.get_apply _), if_neg hne]
      simp only [T, encC]
      exact h2
    unfold marshalC
    rw [h3]
    simp [Enc.left, Enc.push, Enc.new, Enc.out, h1]
  · obtain ⟨cs, c, h1, h2⟩ := forIndex_fails (e := e) (f := fun x => setCurE .le >>= fun _ => f x)
      (P := fun y b => MethodWrites e .le (f y) b) x ys b a hxs xs (xs.flatMap w) (fun y _ b hb => EWat.set hb.ew) (concat_map xs h)
      { Enc.new e with cur := some .le } rfl (fun _ _ => rfl)
    have h3 : encodeC (.array (xs.length + (1 + ys.length)) T) (.arr (xs ++ x :: ys)) (Enc.new e) =
        (.err a, Enc.left { Enc.new e with cur := some .le } cs c) := by
      unfold encodeC
      rw [M.bind_ok (M.get_apply _), if_neg hne]
      simp only [encC, hT]
      simp only [T, encC]
      rw [← h2]
      rfl
    unfold marshalC
    rw [h3]
    simp [Enc.left, Enc.push, Enc.new, Enc.out, h1]

/-! ### a concrete type -/

/-- `func (x BE) MarshalWithEncoder(e *Encoder) error { return e.WriteInt16(int16(x), BE) }` -/
def writeBE : Val → EM Unit
  | .int z => writeInt16 z .be
  | _ => M.panic

/-- `func (x *BE) UnmarshalWithDecoder(d *Decoder) (err error) { n, err := d.ReadInt16(BE); *x = BE(n); return err }` -/
def readBE (_ : Val) : DM Val := do
  let z ← readInt16 .be
  pure (.int z)

/-- `type BE int16` with these methods. -/
def BE : CTy := .user (.plain (.int .w16 false)) (.value writeBE) (some readBE)

/-- The same with `func (x *BE) MarshalWithEncoder`. -/
def PBE : CTy := .user (.plain (.int .w16 false)) (.pointer fun p => writeBE (p.getD .nil)) (some readBE)

theorem BE_lawful (e : Encoding) (z : Int) (h0 : -2 ^ 15 ≤ z) (h1 : z < 2 ^ 15) :
    Lawful e writeBE (readBE (.int 0)) (.int z) (putUint .be 2 (toUnsigned 16 z)) := by
  intro o ho
  constructor
  · exact ((writeInt16_writes e z .be).ew.at o).emits
  · exact (((readInt16_reads e .be z h0 h1).bind_pure (f := Val.int)).rd.at o).takes ho

example : (∀ x ∈ [Val.int 1, .int (-2)], Trip .bin BE x (match x with | .int z => putUint .be 2 (toUnsigned 16 z) | _ => [])) ∧
    Trip .borsh (.slice BE) (.seq (some [.int 1, .int (-2)])) [2, 0, 0, 0, 0, 1, 255, 254] := by
  have h : ∀ e, ∀ x ∈ [Val.int 1, .int (-2)], Lawful e writeBE (readBE (.int 0)) x
      (match x with | .int z => putUint .be 2 (toUnsigned 16 z) | _ => []) := by
    intro e x hx
    simp only [List.mem_cons, List.not_mem_nil, or_false] at hx
    rcases hx with rfl | rfl
    · exact BE_lawful e 1 (by decide) (by decide)
    · exact BE_lawful e (-2) (by decide) (by decide)
  refine ⟨fun x hx => ((C95_positions_partial .bin rfl _ writeBE readBE rfl _ _ (h .bin)).1 x hx).1, ?_⟩
  have := (C95_positions_partial .borsh rfl (.plain (.int .w16 false)) writeBE readBE rfl _ _ (h .borsh)).2.2.1 (by simp) (by decide) (by decide)
  exact this

example : Trip .borsh (.struct (.cons { name := [65] } (.plain .bool) (.cons { name := [66] } BE (.cons { name := [67] } (.plain (.uint .w8 false)) .nil))))
    (.struct [.bool true, .int 258, .uint 9]) [1, 1, 2, 9] :=
  C95_field_partial .borsh rfl _ writeBE readBE (.int 258) [1, 2] (BE_lawful _ 258 (by decide) (by decide)) [65] [66] [67] .bool
    (.uint .w8 false) (.bool true) (.uint 9) ⟨trivial, trivial, rfl, rfl⟩ ⟨by simp only [Encodable]; decide, trivial, rfl, rfl⟩

example : Trip .bin (.ptr PBE) (.ptr (some (.int 258))) [1, 2] :=
  C95_behind_pointer_partial .bin rfl _ _ readBE (.int 258) [1, 2] (BE_lawful _ 258 (by decide) (by decide))

/-- `[3]BE` with a method that refuses negative numbers: the element before it is written. -/
example : marshalC .bin (.array 3 (.user (.plain (.int .w16 false))
      (.value fun v => match v with | .int z => if z < 0 then M.err .varint else writeBE v | _ => M.panic) none))
    (.arr [.int 1, .int (-1), .int 3]) = (.err .varint, [0, 1]) := rfl

/-- **C95** is false of the code: for every type whose methods agree with each other, its values would have to be written as
`MarshalWithEncoder` writes them and come back, by themselves, as elements of an array, as payload of a Borsh enum and in an optional
field. -/
theorem C95_violated :
    ¬ (∀ (m : Method) (g : Val → DM Val) (under : CTy) (f : Val → EM Unit) (v : Val) (bs : Bytes),
        (m = .value f ∨ m = .pointer fun p => f (p.getD .nil)) → (∀ e, Lawful e f (g under.erase.zero) v bs) →
        Trip .bin (.user under m (some g)) v bs) ∧
    ¬ (∀ (g : Val → DM Val) (under : CTy) (f : Val → EM Unit) (v : Val) (bs : Bytes),
        (∀ e, Lawful e f (g under.erase.zero) v bs) → Trip .bin (.array 1 (.user under (.value f) (some g))) (.arr [v]) bs) ∧
    ¬ (∀ (g : Val → DM Val) (under : CTy) (f : Val → EM Unit) (v : Val) (bs : Bytes),
        (∀ e, Lawful e f (g under.erase.zero) v bs) →
        Trip .borsh (.struct (.cons { name := [69], tag := { isEnum := true } } (.plain .borshEnum)
          (.cons { name := [65] } (.user under (.value f) (some g)) .nil))) (.struct [.uint 0, v]) (0 :: bs)) ∧
    ¬ (∀ (g : Val → DM Val) (under : CTy) (f : Val → EM Unit) (v : Val) (bs : Bytes),
        (∀ e, Lawful e f (g under.erase.zero) v bs) →
        ∃ b, Trip .bin (.struct (.cons { name := [65], tag := { option := true } } (.user under (.value f) (some g)) .nil))
          (.struct [v]) b) := by
  have hl := fun e => BE_lawful e 258 (by decide) (by decide)
  refine ⟨fun h => ?_, fun h => ?_, fun h => ?_, fun h => ?_⟩
  · have := (h (.pointer fun p => writeBE (p.getD .nil)) readBE (.plain (.int .w16 false)) writeBE (.int 258) [1, 2] (Or.inr rfl) hl).1
    exact absurd (congrArg Prod.snd this) (by decide)
  · have := (h (fun _ => do let n ← readUint16 .be; pure (.uint n)) (.plain (.uint .w16 false))
      (fun v => match v with | .uint n => writeUint16 n .be | _ => M.panic) (.uint 258) [1, 2] (fun e o ho =>
        ⟨((writeUint16_writes e 258 .be).ew.at o).emits,
          (((readUint16_reads e .be 258 (by decide)).bind_pure (f := Val.uint)).rd.at o).takes ho⟩)).1
    exact absurd (congrArg Prod.snd this) (by decide)
  · have := (h readBE (.plain (.int .w16 false)) writeBE (.int 258) [1, 2] hl).1
    exact absurd (congrArg Prod.snd this) (by decide)
  · obtain ⟨b, -, h2⟩ := h readBE (.plain (.int .w16 false)) writeBE (.int 258) [1, 2] hl
    have h3 := C95_optional .bin rfl [65] .le (.plain (.int .w16 false)) (.value writeBE) readBE (.int 0) b
    rw [if_neg (by decide)] at h3
    have h4 := h2.symm.trans h3
    cases h4

/-- The wrong bytes are read back as another number, without an error. -/
example : marshalC .bin PBE (.int 258) = (.ok (), [2, 1]) ∧ unmarshalC .bin PBE (.int 0) [2, 1] = .ok (.int 513) := ⟨rfl, rfl⟩

/-- A struct that embeds `BE`: the other field is lost. -/
example : marshalC .bin (.embedding (.cons { name := [66] } BE (.cons { name := [78] } (.plain (.uint .w8 false)) .nil)) 0 BE)
      (.struct [.int 258, .uint 7]) = (.ok (), [1, 2]) ∧
    unmarshalC .bin (.embedding (.cons { name := [66] } BE (.cons { name := [78] } (.plain (.uint .w8 false)) .nil)) 0 BE)
      (.struct [.int 0, .uint 0]) [1, 2, 7] = .ok (.struct [.int 258, .uint 0]) := ⟨rfl, rfl⟩

/-- With a pointer receiver it is lost behind a pointer only. -/
example : marshalC .bin (.ptr (.embedding (.cons { name := [66] } PBE (.cons { name := [78] } (.plain (.uint .w8 false)) .nil)) 0 PBE))
      (.ptr (some (.struct [.int 258, .uint 7]))) = (.ok (), [1, 2]) ∧
    marshalC .bin (.embedding (.cons { name := [66] } PBE (.cons { name := [78] } (.plain (.uint .w8 false)) .nil)) 0 PBE)
      (.struct [.int 258, .uint 7]) = (.ok (), [2, 1, 7]) := ⟨rfl, rfl⟩

/-- An optional pointer comes back in Bin, and in Borsh it comes back as something else. -/
example : Trip .bin (.struct (.cons { name := [65], tag := { option := true } } (.ptr BE) .nil)) (.struct [.ptr (some (.int 258))])
      [1, 0, 0, 0, 1, 2] ∧
    marshalC .borsh (.struct (.cons { name := [65], tag := { option := true } } (.ptr BE) .nil)) (.struct [.ptr (some (.int 258))]) =
      (.ok (), [1, 1, 2]) ∧
    unmarshalC .borsh (.struct (.cons { name := [65], tag := { option := true } } (.ptr BE) .nil)) (.struct [.ptr none]) [1, 1, 2] =
      .ok (.struct [.ptr (some (.int 257))]) :=
  ⟨(C95_optional_pointer_partial .bin rfl (by decide) [65] BE (.int 258) [1, 2]
    ((C95_closed_partial .bin rfl).2.1 _ _ _ _ _ (BE_lawful _ 258 (by decide) (by decide))).2).1, rfl, rfl⟩

/-- `map[string][]*BE` behind a pointer, put together by `C95_closed_partial`. -/
example : ∃ bs, Trip .borsh (.ptr (.map .str (.slice (.ptr BE))))
    (.ptr (some (.map (some [(.str [97], .seq (some [.ptr (some (.int 1)), .ptr (some (.int 2))])),
      (.str [98], .seq (some [.ptr (some (.int 3))]))])))) bs := by
  obtain ⟨h0, h1, -, -, h4, -, h6, h7, -⟩ := C95_closed_partial .borsh rfl
  have hp : ∀ z : Int, -2 ^ 15 ≤ z → z < 2 ^ 15 →
      Sound .borsh (.ptr BE) (.ptr (some (.int z))) (putUint .be 2 (toUnsigned 16 z)) :=
    fun z z0 z1 => (h1 _ _ _ _ _ (BE_lawful _ z z0 z1)).2
  let w : Val → Bytes := fun v => match v with
    | .ptr (some (.int z)) => putUint .be 2 (toUnsigned 16 z)
    | _ => []
  let ws : Val → Bytes := fun v => match v with
    | .seq (some xs) => lenPrefix .borsh xs.length ++ xs.flatMap w
    | _ => []
  refine ⟨_, h0 _ _ _ (h4 _ _ _ rfl (h7 _ _ _ ws ⟨List.mergeSort_of_pairwise ?_, fun _ => rfl, ?_, ?_⟩ (by simp) (by decide) ?_))⟩
  · refine List.Pairwise.cons (fun a ha => ?_) (List.pairwise_singleton _ _)
    simp only [List.mem_cons, List.not_mem_nil, or_false] at ha
    subst ha
    decide
  · refine List.Pairwise.cons (fun a ha => ?_) (List.pairwise_singleton _ _)
    simp only [List.mem_cons, List.not_mem_nil, or_false] at ha
    subst ha
    rfl
  · intro x hx
    simp only [List.mem_cons, List.not_mem_nil, or_false] at hx
    rcases hx with rfl | rfl <;> exact ⟨by simp [Encodable, maxStr, maxLen], by simp [Returns, readMax], rfl, rfl⟩
  · intro x hx
    simp only [List.mem_cons, List.not_mem_nil, or_false] at hx
    rcases hx with rfl | rfl
    · refine h6 _ _ w rfl (by simp) (by decide) (by decide) fun x hx => ?_
      simp only [List.mem_cons, List.not_mem_nil, or_false] at hx
      rcases hx with rfl | rfl
      · exact hp 1 (by decide) (by decide)
      · exact hp 2 (by decide) (by decide)
    · refine h6 _ _ w rfl (by simp) (by decide) (by decide) fun x hx => ?_
      simp only [List.mem_cons, List.not_mem_nil, or_false] at hx
      subst hx
      exact hp 3 (by decide) (by decide)

/-- A pointer that is nil in Borsh. -/
example : marshalC .borsh (.ptr BE) (.ptr none) = (.ok (), []) ∧ marshalC .bin (.ptr BE) (.ptr none) = (.panic, []) := ⟨rfl, rfl⟩

/-- Methods are called behind a pointer and not elsewhere, if the receiver is a pointer. -/
example : marshalC .bin (.array 1 (.ptr PBE)) (.arr [.ptr (some (.int 258))]) = (.ok (), [1, 2]) ∧
    marshalC .bin (.array 1 PBE) (.arr [.int 258]) = (.ok (), [2, 1]) := ⟨rfl, rfl⟩

end Verif.Props
