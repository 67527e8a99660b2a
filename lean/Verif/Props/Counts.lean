import Verif.Props.Structs
import Verif.Props.Classes
import Verif.Props.Libs
/-!
# C40: counters of every integer type, anywhere in a struct

`Props/Structs` has the pair of an unsigned counter and its slice.  Here the counter may be of any integer type, library types
included, and there may be fields before, between and behind the two.
-/
namespace Verif.Props
open Verif Verif.Spec

/-- No field is tagged `sizeof=name`. -/
def NotAbout (name : Bytes) : Fields → Prop
  | .nil => True
  | .cons m _ fs => m.tag.sizeOf ≠ name ∧ NotAbout name fs

theorem announces_sizeof {t : Ty} {v : Val} {z : Int} (h : Announces t v z) : sizeofVal t.kind v = .ok z := by
  refine (C40_announces t v ?_ z).2 h
  intro n hn
  cases h <;> cases hn <;> omega

/-- The slice is behind the fields `mid`, which do not speak of it. -/
theorem behind_mid {e : Encoding} (mb : FieldMeta) (hb : IsPlain mb) (t : Ty) (r : Fields) (hne : mb.name ≠ []) :
    (mid : Fields) → NotAbout mb.name mid → ∀ (sm : List (Bytes × Int)) (seen : Bool) (os : List Val),
    os[mid.length]? = some (.seq none) →
    Post (decFields e (mid.append (.cons mb (.slice t) r)) sm seen os) fun vs =>
      seen = false ∧ ∀ z, lookupSize mb.name sm = some z →
        ∃ xs, vs[mid.length]? = some (.seq xs) ∧ (xs.getD []).length = z.toNat
  | .nil, _, sm, seen, [], ho => by simp at ho
  | .nil, _, sm, seen, o :: os, ho => by
    have ho' : o = .seq none := by simpa [Fields.length] using ho
    subst ho'
    have hxb : extensionEnds mb = pure false := by unfold extensionEnds; rw [if_neg (by simp [hb.noext])]
    simp only [Fields.append, decFields, hb.noskip, hb.noext, hb.exported, hxb, Ty.directLib, Bool.false_eq_true, if_false,
      Bool.not_false, Bool.true_and, Bool.not_true, Bool.or_false]
    refine Post.ite (fun _ => Post.panic) fun hs => ?_
    have hs' : seen = false := by simpa using hs
    refine Post.bind (P := fun q => q = false) (Post.pure rfl) fun q hq => ?_
    subst hq
    rw [if_neg (by simp)]
    have hm : (if e = .borsh then (none : Option (Lib × Bool)) else none) = none := by split <;> rfl
    simp only [hm]
    rw [decField_plain mb hb]
    cases hl : lookupSize mb.name sm with
    | none => exact Post.after fun _ => Post.after fun _ => (Post.trivial _).map fun _ _ => ⟨hs', by simp⟩
    | some z =>
      refine Post.bind (Post.after fun _ => slice_count t _ z (by simp [fieldOpt, hl])) fun x ⟨xs, hx, hlen⟩ => ?_
      refine Post.after fun _ => (Post.trivial _).map fun rest _ => ⟨hs', ?_⟩
      intro z' hz'
      cases hz'
      exact ⟨xs, by simp [Fields.length, hx], hlen⟩
  | .cons m tm mid, hn, sm, seen, [], ho => by simp at ho
  | .cons m tm mid, hn, sm, seen, o :: os, ho => by
    have ho' : os[mid.length]? = some (.seq none) := by simpa [Fields.length] using ho
    have ih := behind_mid (e := e) mb hb t r hne mid hn.2
    have step : ∀ (x : Val) (sm' : List (Bytes × Int)) (seen' : Bool), (∀ z, lookupSize mb.name sm = some z → lookupSize mb.name sm' = some z) →
        (seen = true → seen' = true) →
        Post (decFields e (mid.append (.cons mb (.slice t) r)) sm' seen' os >>= fun rest => pure (x :: rest)) fun vs =>
          seen = false ∧ ∀ z, lookupSize mb.name sm = some z →
            ∃ xs, vs[(Fields.cons m tm mid).length]? = some (.seq xs) ∧ (xs.getD []).length = z.toNat := by
      intro x sm' seen' hsm hseen
      refine (ih sm' seen' os ho').map fun rest ⟨h1, h2⟩ => ⟨?_, fun z hz => ?_⟩
      · cases seen with
        | false => rfl
        | true => rw [hseen rfl] at h1; cases h1
      · obtain ⟨xs, h3, h4⟩ := h2 z (hsm z hz)
        exact ⟨xs, by simpa [Fields.length] using h3, h4⟩
    simp only [Fields.append, decFields]
    refine Post.ite (fun _ => step _ _ _ (fun _ h => h) id) fun _ => Post.ite (fun _ => Post.panic) fun _ => Post.after fun atEnd => ?_
    refine Post.ite (fun _ => step _ _ _ (fun _ h => h) (by simp_all)) fun _ => ?_
    split
    · exact Post.after fun x => step _ _ _ (fun _ h => h) (by simp_all)
    · refine Post.after fun x => Post.bind (P := fun sm' => ∀ z, lookupSize mb.name sm = some z → lookupSize mb.name sm' = some z) ?_
        fun sm' hsm => step _ _ _ hsm (by simp_all)
      unfold recordSize
      refine Post.ite (fun _ => Post.pure fun _ h => h) fun _ => (Post.trivial _).map fun k _ z hz => ?_
      simp [lookupSize, hn.1, hz]

/-- The counter is behind the fields `l`. -/
theorem behind_fields {e : Encoding} (ma mb : FieldMeta) (hb : IsPlain mb) (hsk : ma.tag.skip = false) (hex : ma.exported = true)
    (hs : ma.tag.sizeOf = mb.name) (hne : mb.name ≠ []) (ta t : Ty) (hta : e = .borsh → ta.directLib = none)
    (mid r : Fields) (hmid : NotAbout mb.name mid) :
    (l : Fields) → ∀ (sm : List (Bytes × Int)) (seen : Bool) (os : List Val),
    os[l.length + 1 + mid.length]? = some (.seq none) →
    Post (decFields e (l.append (.cons ma ta (mid.append (.cons mb (.slice t) r)))) sm seen os) fun vs =>
      ∃ a z xs, vs[l.length]? = some a ∧ vs[l.length + 1 + mid.length]? = some (.seq xs) ∧
        sizeofVal ta.kind a = .ok z ∧ (xs.getD []).length = z.toNat
  | .nil, sm, seen, [], ho => by simp at ho
  | .nil, sm, seen, o :: os, ho => by
    have ho' : os[mid.length]? = some (.seq none) := by
      rw [show (Fields.nil).length + 1 + mid.length = mid.length + 1 by simp only [Fields.length]; omega] at ho
      simpa using ho
    simp only [Fields.append, decFields, hsk, hex, Bool.false_eq_true, if_false, Bool.not_true, Bool.or_false]
    refine Post.ite (fun _ => Post.panic) fun hseen => ?_
    refine Post.bind (P := fun q => q = true → ma.tag.binExt = true) ?_ fun atEnd hend => ?_
    · unfold extensionEnds
      refine Post.ite (fun h => ?_) fun _ => Post.pure (by simp)
      exact Post.weaken (Post.trivial _) fun _ _ _ => h
    refine Post.ite (fun hat => ?_) fun _ => ?_
    · refine (behind_mid (e := e) mb hb t r hne mid hmid sm _ os ho').map fun rest ⟨h1, _⟩ => ?_
      rw [hend hat] at h1
      simp at h1
    · have hm : (if e = .borsh then ta.directLib else none) = none := by
        split
        · rename_i h; exact hta h
        · rfl
      simp only [hm]
      refine Post.after fun a => ?_
      refine Post.bind (P := fun sm' => ∃ z, sizeofVal ta.kind a = .ok z ∧ lookupSize mb.name sm' = some z) ?_ fun sm' ⟨z, hz, hlk⟩ => ?_
      · unfold recordSize
        rw [if_neg (by rw [hs]; exact hne)]
        intro s x s' hr
        cases hv : sizeofVal ta.kind a with
        | ok z =>
          rw [hv] at hr
          simp [M.bind_apply, M.lift_apply] at hr
          exact ⟨z, rfl, by rw [← hr.1]; simp [lookupSize, hs]⟩
        | err x => rw [hv] at hr; simp [M.bind_apply, M.lift_apply] at hr
        | panic => rw [hv] at hr; simp [M.bind_apply, M.lift_apply] at hr
      · refine (behind_mid (e := e) mb hb t r hne mid hmid sm' _ os ho').map fun rest ⟨_, h2⟩ => ?_
        obtain ⟨xs, h3, h4⟩ := h2 z hlk
        refine ⟨a, z, xs, by simp [Fields.length], ?_, hz, h4⟩
        rw [show (Fields.nil).length + 1 + mid.length = mid.length + 1 by simp only [Fields.length]; omega]
        simpa using h3
  | .cons m tm l, sm, seen, [], ho => by simp at ho
  | .cons m tm l, sm, seen, o :: os, ho => by
    have hix : (Fields.cons m tm l).length + 1 + mid.length = (l.length + 1 + mid.length) + 1 := by simp only [Fields.length]; omega
    have ho' : os[l.length + 1 + mid.length]? = some (.seq none) := by
      rw [hix] at ho
      simpa using ho
    have ih := behind_fields (e := e) ma mb hb hsk hex hs hne ta t hta mid r hmid l
    have step : ∀ (x : Val) (sm' : List (Bytes × Int)) (seen' : Bool),
        Post (decFields e (l.append (.cons ma ta (mid.append (.cons mb (.slice t) r)))) sm' seen' os >>= fun rest => pure (x :: rest))
          fun vs => ∃ a z xs, vs[(Fields.cons m tm l).length]? = some a ∧
            vs[(Fields.cons m tm l).length + 1 + mid.length]? = some (.seq xs) ∧ sizeofVal ta.kind a = .ok z ∧
            (xs.getD []).length = z.toNat := by
      intro x sm' seen'
      refine (ih sm' seen' os ho').map fun rest ⟨a, z, xs, h1, h2, h3, h4⟩ => ⟨a, z, xs, ?_, ?_, h3, h4⟩
      · simpa [Fields.length] using h1
      · rw [hix]; simpa using h2
    simp only [Fields.append, decFields]
    refine Post.ite (fun _ => step _ _ _) fun _ => Post.ite (fun _ => Post.panic) fun _ => Post.after fun atEnd => ?_
    refine Post.ite (fun _ => step _ _ _) fun _ => ?_
    split
    · exact Post.after fun x => step _ _ _
    · exact Post.after fun x => Post.after fun sm' => step _ _ _

/-- C40, decoding anywhere in a struct: fields `l` before the counter `A`, `mid` between it and the slice `B`, `r` behind.  If
decoding into a fresh variable succeeds, then the value of `A` announces a number and `B` has that many elements.  `A` may be
optional, and of any type, except for the library types in Borsh. -/
theorem C40_anywhere {e : Encoding} (ma mb : FieldMeta) (hb : IsPlain mb) (hsk : ma.tag.skip = false) (hex : ma.exported = true)
    (hs : ma.tag.sizeOf = mb.name) (hne : mb.name ≠ []) (ta t : Ty) (hta : e = .borsh → ta.directLib = none)
    (l mid r : Fields) (hmid : NotAbout mb.name mid)
    (hen : ¬ (e = .borsh ∧ (l.append (.cons ma ta (mid.append (.cons mb (.slice t) r)))).isEnum = true))
    (b : Bytes) (y : Val)
    (h : unmarshal e (.struct (l.append (.cons ma ta (mid.append (.cons mb (.slice t) r)))))
      (Ty.zero (.struct (l.append (.cons ma ta (mid.append (.cons mb (.slice t) r)))))) b = .ok y) :
    ∃ vs a xs, y = .struct vs ∧ vs[l.length]? = some a ∧ vs[l.length + 1 + mid.length]? = some (.seq xs) ∧
      ((∀ n, a = .uint n → n < 2 ^ 64) → ∃ z, Announces ta a z ∧ ((xs.getD []).length : Int) = max z 0) := by
  have hr := h
  unfold unmarshal decode at hr
  rw [M.bind_apply, M.get_apply] at hr
  simp only [] at hr
  by_cases ho : e = .other
  · rw [if_pos (by simpa [Dec.new] using ho)] at hr
    simp at hr
  rw [if_neg (by simpa [Dec.new] using ho), show (Dec.new b e).enc = e from rfl] at hr
  have hfst : ∀ {σ α : Type} {m : M σ α} {s : σ} {a : α}, (m s).1 = .ok a → ∃ s', m s = (.ok a, s') := by
    intro σ α m s a h
    exact ⟨(m s).2, Prod.ext h rfl⟩
  obtain ⟨d', hr⟩ := hfst hr
  have key : Post (setCurD .le >>= fun _ => decCore e (.struct (l.append (.cons ma ta (mid.append (.cons mb (.slice t) r))))) {}
      (Ty.zero (.struct (l.append (.cons ma ta (mid.append (.cons mb (.slice t) r))))))) fun y =>
      ∃ vs a z xs, y = .struct vs ∧ vs[l.length]? = some a ∧ vs[l.length + 1 + mid.length]? = some (.seq xs) ∧
        sizeofVal ta.kind a = .ok z ∧ (xs.getD []).length = z.toNat := by
    refine Post.after fun _ => ?_
    simp only [decCore, decStruct, if_neg hen]
    refine (behind_fields (e := e) ma mb hb hsk hex hs hne ta t hta mid r hmid l [] false _ ?_).map
      fun vs ⟨a, z, xs, h1, h2, h3, h4⟩ => ⟨vs, a, z, xs, rfl, h1, h2, h3, h4⟩
    simp only [Ty.zero, Val.fields, Fields.zeros_append, Fields.zeros]
    rw [List.getElem?_append_right (by rw [Fields.zeros_length]; omega), Fields.zeros_length,
      show l.length + 1 + mid.length - l.length = mid.length + 1 by omega, List.getElem?_cons_succ,
      List.getElem?_append_right (by rw [Fields.zeros_length]; omega), Fields.zeros_length]
    simp
  obtain ⟨vs, a, z, xs, hy, h1, h2, h3, h4⟩ := key _ _ _ hr
  exact ⟨vs, a, xs, hy, h1, h2, fun hv => ⟨z, (C40_announces ta a hv z).1 h3, by omega⟩⟩

/-! ### the pair, with a counter of any integer type -/

theorem pair_encodable {e : Encoding} (ma mb : FieldMeta) (ha : IsPlain ma) (hb : IsPlain mb)
    (hs : ma.tag.sizeOf = mb.name) (hne : mb.name ≠ []) (hab : ma.name ≠ mb.name) (hbs : mb.tag.sizeOf = []) (ta t : Ty)
    (hen : ¬ (e = .borsh ∧ (Fields.cons ma ta (.cons mb (.slice t) .nil)).isEnum = true)) (a : Val)
    (xs : List Val) (hann : Announces ta a xs.length) (h1 : Encodable e ta none a)
    (h2 : Encodable e (.slice t) (some xs.length) (.seq (some xs))) :
    Encodable e (.struct (.cons ma ta (.cons mb (.slice t) .nil))) none (.struct [a, .seq (some xs)]) := by
  rw [encodable_struct hen]
  simp only [EncodableFields, ha.noskip, hb.noskip, announce, hs, hne, hbs, announces_sizeof hann, Bool.false_eq_true, if_false,
    if_true, and_true, lookupSize, if_neg (Ne.symm hab)]
  exact ⟨fun _ _ => h1, fun _ _ => h2⟩

/-- C40, format: the count in whatever format its type has, then the elements with no prefix of their own. -/
theorem C40_any_format {e : Encoding} (he : e.valid = true) (ma mb : FieldMeta) (ha : IsPlain ma) (hb : IsPlain mb)
    (hs : ma.tag.sizeOf = mb.name) (hne : mb.name ≠ []) (hab : ma.name ≠ mb.name) (hbs : mb.tag.sizeOf = []) (ta t : Ty)
    (hen : ¬ (e = .borsh ∧ (Fields.cons ma ta (.cons mb (.slice t) .nil)).isEnum = true)) (a : Val)
    (xs : List Val) (hann : Announces ta a xs.length) (h1 : Encodable e ta none a)
    (h2 : Encodable e (.slice t) (some xs.length) (.seq (some xs))) :
    marshal e (.struct (.cons ma ta (.cons mb (.slice t) .nil))) (.struct [a, .seq (some xs)]) =
      (.ok (), wire e ta ma.tag.order false a ++ xs.flatMap fun x =>
        match t.uintKind with
        | some w => uintWire w x
        | none => wire e t .le false x) := by
  rw [marshal_wire he _ _ (pair_encodable ma mb ha hb hs hne hab hbs ta t hen a xs hann h1 h2), wire_struct _ _ _ hen]
  simp [wireFields, ha.noskip, ha.exported, hb.noskip, hb.exported, announced, hs, hne, hab, hbs, fieldWire, ha.nooption, ha.nocoption,
    hb.nooption, hb.nocoption, wire]
  cases t.uintKind <;> rfl

/-- C40, round trip, with a counter of any integer type; in Borsh not of a library type, see `C40_violated_library`. -/
theorem C40_any_roundtrip {e : Encoding} (he : e.valid = true) (ma mb : FieldMeta) (ha : IsPlain ma) (hb : IsPlain mb)
    (hs : ma.tag.sizeOf = mb.name) (hne : mb.name ≠ []) (hab : ma.name ≠ mb.name) (hbs : mb.tag.sizeOf = [])
    (hle : e = .borsh → ma.tag.order = .le ∧ mb.tag.order = .le) (ta t : Ty) (hta : e = .borsh → ta.directLib = none)
    (hen : ¬ (e = .borsh ∧ (Fields.cons ma ta (.cons mb (.slice t) .nil)).isEnum = true)) (a : Val)
    (xs : List Val) (hann : Announces ta a xs.length) (h1 : Supported e ta a)
    (h2 : Encodable e (.slice t) (some xs.length) (.seq (some xs))) (h3 : Returns e (.slice t) true (.seq (some xs))) :
    unmarshal e (.struct (.cons ma ta (.cons mb (.slice t) .nil))) (Ty.zero (.struct (.cons ma ta (.cons mb (.slice t) .nil))))
        (marshal e (.struct (.cons ma ta (.cons mb (.slice t) .nil))) (.struct [a, .seq (some xs)])).2 =
      .ok (.struct [copy e ta a, copy e (.slice t) (.seq (some xs))]) := by
  have hS : Supported e (.struct (.cons ma ta (.cons mb (.slice t) .nil))) (.struct [a, .seq (some xs)]) := by
    refine ⟨pair_encodable ma mb ha hb hs hne hab hbs ta t hen a xs hann h1.1 h2, ?_⟩
    rw [returns_struct hen]
    simp only [ReturnsFields, ha.noskip, hb.noskip, ha.noext, hb.noext, ha.exported, hb.exported, ha.nooption, ha.nocoption,
      hb.nooption, hb.nocoption, hs, hbs, Bool.false_eq_true, if_false, if_true, false_imp_iff, true_and, and_true,
      Bool.or_self, implies_true, ne_eq, not_true_eq_false]
    have hc : (announced mb (announced ma [])).contains mb.name = true := by simp [announced, hbs, hs, hne]
    have hc' : (announced ma []).contains ma.name = false := by simp [announced, hs, hne, hab]
    rw [hc, hc']
    exact ⟨⟨fun h => (hle h).1, fun _ => ⟨fun h => hab h.symm, hta⟩, fun _ => h1.2⟩, fun h => (hle h).2, fun _ => h3⟩
  rw [marshal_wire he _ _ hS.1]
  have := unmarshal_wire he _ _ hS []
  rw [List.append_nil] at this
  simp only []
  rw [this]
  simp only [copy, if_neg hen]
  simp [copy, copyFields, ha.noskip, hb.noskip, ha.exported, hb.exported, absent, ha.nooption, ha.nocoption,
    hb.nooption, hb.nocoption]

/-- C40 is false for counters of a library type in Borsh: the encoder leaves the prefix of the slice out, the decoder reads one
(decoder_borsh.go:412-434 goes on to the next field before it records the counter).  So what was written for two elements is
not read back, and a counter of two comes with one element. -/
theorem C40_violated_library :
    let t := Ty.struct (.cons { name := [65], tag := { sizeOf := [66] } } (.lib .uint64) (.cons { name := [66] } (.slice .bool) .nil))
    marshal .borsh t (.struct [.uint 2, .seq (some [.bool true, .bool false])]) = (.ok (), [2, 0, 0, 0, 0, 0, 0, 0, 1, 0]) ∧
    (∃ x, unmarshal .borsh t t.zero [2, 0, 0, 0, 0, 0, 0, 0, 1, 0] = .err x) ∧
    unmarshal .borsh t t.zero [2, 0, 0, 0, 0, 0, 0, 0, 1, 0, 0, 0, 1] = .ok (.struct [.uint 2, .seq (some [.bool true])]) := by
  intro t
  exact ⟨by decide +kernel, ⟨_, rfl⟩, by rfl⟩

/-- C40 is false for pointers to slices in Borsh: behind a pointer the encoder has forgotten the counter and writes a prefix
(encoder_borsh.go:131-137 calls `encodeBorsh` with no option), the decoder takes the counter and reads the prefix as elements
(decoder_borsh.go:98-106, 212-221).  Nothing fails: `{true, true}` comes back as `{true, false}`.  In Bin it comes back. -/
theorem C40_violated_pointer :
    let t := Ty.struct (.cons { name := [65], tag := { sizeOf := [66] } } (.uint .w8 false)
      (.cons { name := [66] } (.ptr (.slice .bool)) .nil))
    let v := Val.struct [.uint 2, .ptr (some (.seq (some [.bool true, .bool true])))]
    marshal .borsh t v = (.ok (), [2, 2, 0, 0, 0, 1, 1]) ∧
    unmarshal .borsh t t.zero [2, 2, 0, 0, 0, 1, 1] =
      .ok (.struct [.uint 2, .ptr (some (.seq (some [.bool true, .bool false])))]) ∧
    marshal .bin t v = (.ok (), [2, 1, 1]) ∧ unmarshal .bin t t.zero [2, 1, 1] = .ok v := by
  intro t v
  exact ⟨by decide +kernel, by rfl, by decide +kernel, by rfl⟩

/-! ### concrete cases -/

/-- Meets the hypotheses of `C40_anywhere`: a string before a signed counter, a number between it and the slice, a flag behind. -/
example : IsPlain { name := [66] } ∧
    NotAbout [66] (.cons { name := [67] } (.uint .w16 false) .nil) ∧
    unmarshal .borsh (.struct ((Fields.cons { name := [68] } .str .nil).append
        (.cons { name := [65], tag := { sizeOf := [66] } } (.int .w8 false)
          ((Fields.cons { name := [67] } (.uint .w16 false) .nil).append
            (.cons { name := [66] } (.slice .bool) (.cons { name := [69] } .bool .nil))))))
      (.struct [.str [], .int 0, .uint 0, .seq none, .bool false])
      [1, 0, 0, 0, 104, 2, 7, 0, 1, 0, 1] =
        .ok (.struct [.str [104], .int 2, .uint 7, .seq (some [.bool true, .bool false]), .bool true]) :=
  ⟨⟨rfl, rfl, rfl, rfl, rfl⟩, ⟨nofun, trivial⟩, rfl⟩

/-- Meets the hypotheses of the pair: a `Varint16` counts two booleans in the Bin encoding. -/
example : Announces (.lib .varint16) (.int 2) ([Val.bool true, .bool false] : List Val).length ∧
    Supported .bin (.lib .varint16) (.int 2) ∧
    Encodable .bin (.slice .bool) (some 2) (.seq (some [.bool true, .bool false])) ∧
    Returns .bin (.slice .bool) true (.seq (some [.bool true, .bool false])) := by
  refine ⟨.varint16 2, ⟨?_, ?_⟩, ?_, ?_⟩
  · simp [Encodable, LibEnc]
  · simp [Returns, LibRet]
  · simp [Encodable, Ty.uintKind, Ty.kind]
  · simp [Returns, Ty.uintKind, Ty.kind, wire]
example : marshal .bin (.struct (.cons { name := [65], tag := { sizeOf := [66] } } (.lib .varint16)
    (.cons { name := [66] } (.slice .bool) .nil))) (.struct [.int 2, .seq (some [.bool true, .bool false])]) =
    (.ok (), [4, 1, 0]) := by decide +kernel

end Verif.Props
