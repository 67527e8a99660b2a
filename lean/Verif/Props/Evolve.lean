import Verif.Proofs.Evolve
import Verif.Props.Structs
import Verif.Props.Enums
import Verif.Props.Containers
/-!
# Versions of a type: fields and variants added at the end (C103)

C41 is about added fields that are tagged as extensions; here the added fields have any tags.
-/
set_option linter.unusedSimpArgs false
namespace Verif.Props
open Verif Verif.Spec

theorem not_other {e : Encoding} (he : e.valid = true) : e ≠ .other := by intro h; subst h; cases he

theorem encode_struct {fs : Fields} {vs : List Val} {s : Enc} (he : s.enc.valid = true) (hn : ¬ (s.enc = .borsh ∧ fs.isEnum = true)) :
    encode (.struct fs) (.struct vs) s = encFields s.enc fs [] vs { s with cur := some .le } := by
  unfold encode
  rw [M.bind_ok (M.get_apply _), if_neg (not_other he)]
  simp only [encCore, encStruct, if_neg hn]
  rfl

theorem decode_struct {fs : Fields} {vs : List Val} {d : Dec} (he : d.enc.valid = true) (hn : ¬ (d.enc = .borsh ∧ fs.isEnum = true)) :
    decode (.struct fs) (.struct vs) d = (decFields d.enc fs [] false vs >>= fun xs => pure (.struct xs)) { d with cur := some .le } := by
  unfold decode
  rw [M.bind_ok (M.get_apply _), if_neg (not_other he)]
  simp only [decCore, decStruct, if_neg hn, Val.fields]
  rfl

/-- C103, encoding with any writer: where the older version of the struct fails or panics, the newer one does the same, with the same
bytes written. -/
theorem C103_encode_failed (fs gs : Fields) (vs ws : List Val) (hl : vs.length = fs.length) (s : Enc) (he : s.enc.valid = true)
    (hn : ¬ (s.enc = .borsh ∧ (fs.append gs).isEnum = true)) (hn' : ¬ (s.enc = .borsh ∧ fs.isEnum = true))
    (hf : (encode (.struct fs) (.struct vs) s).1 ≠ .ok ()) :
    encode (.struct (fs.append gs)) (.struct (vs ++ ws)) s = encode (.struct fs) (.struct vs) s := by
  rw [encode_struct he hn, encode_struct he hn'] at *
  rcases encFields_goes (e := s.enc) gs ws fs [] vs hl { s with cur := some .le } with ⟨x, s1, h1, h2⟩ | ⟨s1, h1, h2⟩ | ⟨_, s1, k, _, h1, _⟩
  · rw [h1, h2]
  · rw [h1, h2]
  · rw [h1] at hf; exact absurd rfl hf

/-- C103, encoding: the bytes of the newer version start with those of the older one, whatever the tags of the added fields and whatever
becomes of them. -/
theorem C103_encode (e : Encoding) (he : e.valid = true) (fs gs : Fields) (vs ws : List Val) (hl : vs.length = fs.length)
    (hn : ¬ (e = .borsh ∧ (fs.append gs).isEnum = true)) (hn' : ¬ (e = .borsh ∧ fs.isEnum = true)) :
    (marshal e (.struct fs) (.struct vs)).2 <+: (marshal e (.struct (fs.append gs)) (.struct (vs ++ ws))).2 := by
  have key (s : Enc) (hs : s.enc = e) (ho : s.sink = okSink) :
      (encode (.struct fs) (.struct vs) s).2.out <+: (encode (.struct (fs.append gs)) (.struct (vs ++ ws)) s).2.out := by
    subst hs
    rw [encode_struct he hn, encode_struct he hn']
    have ht : ({ s with cur := some .le } : Enc).sink = okSink := ho
    revert ht
    generalize ({ s with cur := some .le } : Enc) = t
    intro ht
    rcases encFields_goes (e := s.enc) gs ws fs [] vs hl t with ⟨x, s1, h1, h2⟩ | ⟨s1, h1, h2⟩ | ⟨_, s1, k, ⟨sm, rfl⟩, h1, h2⟩
    · rw [h1, h2]; exact List.prefix_refl _
    · rw [h1, h2]; exact List.prefix_refl _
    · rw [h1, h2]
      obtain ⟨r, cs, c, g, _⟩ := Local.encFields s.enc fs [] vs t t ⟨ht, ht, rfl, rfl⟩
      rw [h1] at g
      have g' : s1 = t.left cs c := congrArg Prod.snd g
      have h3 : s1.sink = okSink := by rw [g']; exact ht
      obtain ⟨r, cs, c, g, _⟩ := Local.encFields s.enc gs sm ws s1 s1 ⟨h3, h3, rfl, rfl⟩
      rw [g]
      exact ⟨cs.flatten, by simp [Enc.left, Enc.push, Enc.out]⟩
  exact key (Enc.new e) rfl rfl

/-- A field more, which cannot be encoded. -/
example : marshal .bin (.struct (.cons { name := [65] } (.uint .w8 false) .nil)) (.struct [.uint 7]) = (.ok (), [7]) ∧
    marshal .bin (.struct (.cons { name := [65] } (.uint .w8 false) (.cons { name := [66] } (.array 2 .plainInt) .nil)))
      (.struct [.uint 7, .arr [.int 1, .int 2]]) = (.err .unsupported, [7]) := by
  constructor <;> decide +kernel

/-- C103, decoding from any bytes: where the older version fails or panics, the newer one does the same in the same place; where the
newer one succeeds, the older one does too, with the same first fields. -/
theorem C103_decode (fs gs : Fields) (vs ws : List Val) (hl : vs.length = fs.length) (d : Dec) (he : d.enc.valid = true)
    (hn : ¬ (d.enc = .borsh ∧ (fs.append gs).isEnum = true)) (hn' : ¬ (d.enc = .borsh ∧ fs.isEnum = true)) :
    ((∀ x, (decode (.struct fs) (.struct vs) d).1 ≠ .ok x) →
      decode (.struct (fs.append gs)) (.struct (vs ++ ws)) d = decode (.struct fs) (.struct vs) d) ∧
    (∀ x, (decode (.struct (fs.append gs)) (.struct (vs ++ ws)) d).1 = .ok x →
      ∃ xs ys, x = .struct (xs ++ ys) ∧ (decode (.struct fs) (.struct vs) d).1 = .ok (.struct xs)) := by
  rw [decode_struct he hn, decode_struct he hn']
  rcases decFields_goes (e := d.enc) gs ws fs [] false vs hl { d with cur := some .le } with ⟨x, s1, h1, h2⟩ | ⟨s1, h1, h2⟩ | ⟨xs, s1, k, ⟨sm, seen, rfl⟩, h1, h2⟩
  · rw [M.bind_err h1, M.bind_err h2]
    exact ⟨fun _ => rfl, fun _ h => by cases h⟩
  · rw [M.bind_panic h1, M.bind_panic h2]
    exact ⟨fun _ => rfl, fun _ h => by cases h⟩
  · constructor
    · intro h
      rw [M.bind_ok h1] at h
      exact absurd rfl (h _)
    · intro x h
      cases hg : decFields d.enc gs sm seen ws s1 with
      | mk res s2 =>
        cases res with
        | err y => rw [M.bind_err hg] at h2; rw [M.bind_err h2] at h; cases h
        | panic => rw [M.bind_panic hg] at h2; rw [M.bind_panic h2] at h; cases h
        | ok ys =>
          rw [M.bind_ok hg] at h2
          rw [M.bind_ok h2] at h
          simp only [M.pure_apply, Res.ok.injEq] at h
          exact ⟨xs, ys, h.symm, by rw [M.bind_ok h1]; rfl⟩

/-- C103: the older version reads what the newer one wrote, and stops before the added fields, even if these could not be written in
full. -/
theorem C103_trip (e : Encoding) (he : e.valid = true) (fs gs : Fields) (vs ws : List Val) (hl : vs.length = fs.length)
    (hn : ¬ (e = .borsh ∧ (fs.append gs).isEnum = true)) (hn' : ¬ (e = .borsh ∧ fs.isEnum = true))
    (h : Supported e (.struct fs) (.struct vs)) :
    ∃ w, Same e (.struct fs) (.struct vs) w ∧
      (decode (.struct fs) (.struct fs.zeros) (Dec.new (marshal e (.struct (fs.append gs)) (.struct (vs ++ ws))).2 e)).1 = .ok w ∧
      (decode (.struct fs) (.struct fs.zeros) (Dec.new (marshal e (.struct (fs.append gs)) (.struct (vs ++ ws))).2 e)).2.pos =
        (marshal e (.struct fs) (.struct vs)).2.length := by
  obtain ⟨more, hm⟩ := C103_encode e he fs gs vs ws hl hn hn'
  rw [← hm, marshal_wire he _ _ h.1]
  obtain ⟨c, hc⟩ := decode_r he _ _ h.1 h.2 (Dec.new (wire e (.struct fs) .le false (.struct vs) ++ more) e) more rfl (Dec.new_ok _ e)
    (Dec.new_rest _ _)
  refine ⟨_, same_copy _ none _ h.1 h.2, ?_⟩
  rw [show (Ty.struct fs).zero = .struct fs.zeros from rfl] at hc
  rw [hc]
  exact ⟨rfl, by simp [Dec.to, Dec.new]⟩

/-- Meets the hypotheses. -/
example : Supported .borsh (.struct (.cons { name := [65] } (.uint .w16 false) .nil)) (.struct [.uint 300]) ∧
    marshal .borsh (.struct (.cons { name := [65] } (.uint .w16 false) (.cons { name := [66] } .str .nil))) (.struct [.uint 300, .str [67]]) =
      (.ok (), [44, 1, 1, 0, 0, 0, 67]) ∧
    unmarshal .borsh (.struct (.cons { name := [65] } (.uint .w16 false) .nil)) (.struct [.uint 0]) [44, 1, 1, 0, 0, 0, 67] =
      .ok (.struct [.uint 300]) := by
  refine ⟨⟨?_, ?_⟩, by decide +kernel, by decide +kernel⟩
  · simp [Encodable, EncodableFields, announce, Fields.isEnum, Width.bits, Width.bytes]
  · simp [Returns, ReturnsFields, Fields.isEnum]

/-- This is about the value as a whole: elements of a slice are not told apart by the older version. -/
theorem C103_nested :
    marshal .bin (.slice (.struct (.cons { name := [65] } (.uint .w8 false) (.cons { name := [66] } (.uint .w8 false) .nil))))
      (.seq (some [.struct [.uint 1, .uint 2], .struct [.uint 3, .uint 4]])) = (.ok (), [2, 1, 2, 3, 4]) ∧
    unmarshal .bin (.slice (.struct (.cons { name := [65] } (.uint .w8 false) .nil))) (.seq none) [2, 1, 2, 3, 4] =
      .ok (.seq (some [.struct [.uint 1], .struct [.uint 2]])) := by
  constructor <;> decide +kernel

/-! ### Variants of a Borsh enum -/

theorem append_fields_length (fs gs : Fields) : (fs.append gs).length = fs.length + gs.length := by
  induction fs using Fields.rec (motive_1 := fun _ => True) with
  | nil => simp [Fields.append, Fields.length]
  | cons m t fs _ ih => simp only [Fields.append, Fields.length, ih]; omega
  | _ => trivial

theorem encNth_append {e : Encoding} (gs : Fields) (ws : List Val) : (fs : Fields) → (i : Nat) → (vs : List Val) → vs.length = fs.length →
    i < fs.length → encNth e (fs.append gs) i (vs ++ ws) = encNth e fs i vs
  | .nil, i, vs, _, h => by simp [Fields.length] at h
  | .cons _ _ _, i, [], hl, _ => by simp [Fields.length] at hl
  | .cons m t fs, 0, v :: vs, _, _ => by simp only [Fields.append, List.cons_append, encNth]
  | .cons m t fs, i + 1, v :: vs, hl, h => by
    simp only [Fields.append, List.cons_append, encNth]
    exact encNth_append gs ws fs i vs (by simpa [Fields.length] using hl) (by simp only [Fields.length] at h; omega)

theorem decNth_append {e : Encoding} (gs : Fields) (ws : List Val) : (fs : Fields) → (i : Nat) → (vs : List Val) → vs.length = fs.length →
    i < fs.length → decNth e (fs.append gs) i (vs ++ ws) = (decNth e fs i vs >>= fun xs => pure (xs ++ ws))
  | .nil, i, vs, _, h => by simp [Fields.length] at h
  | .cons _ _ _, i, [], hl, _ => by simp [Fields.length] at hl
  | .cons m t fs, 0, v :: vs, _, _ => by
    simp only [Fields.append, List.cons_append, decNth]
    funext d
    simp only [M.bind_apply, setCurD, M.modify_apply]
    rcases decCore e t {} v { d with cur := some .le } with ⟨r, d1⟩
    cases r <;> rfl
  | .cons m t fs, i + 1, v :: vs, hl, h => by
    simp only [Fields.append, List.cons_append, decNth]
    rw [decNth_append gs ws fs i vs (by simpa [Fields.length] using hl) (by simp only [Fields.length] at h; omega)]
    funext d
    simp only [M.bind_apply]
    rcases decNth e fs i vs d with ⟨r, d1⟩
    cases r <;> rfl

theorem isEnum_append {fs gs : Fields} (h : fs.isEnum = true) : (fs.append gs).isEnum = true := by
  cases fs with
  | nil => cases h
  | cons m t fs => cases t <;> first | exact h | cases h

/-- C103, enums: variants added at the end change nothing for the variants before them, with any writer. -/
theorem C103_variant_encode (fs gs : Fields) (hf : fs.isEnum = true) (n : Nat) (vs ws : List Val) (hl : vs.length + 1 = fs.length)
    (hn : n + 1 < fs.length) (s : Enc) (he : s.enc = .borsh) :
    encode (.struct (fs.append gs)) (.struct (.uint n :: vs ++ ws)) s = encode (.struct fs) (.struct (.uint n :: vs)) s := by
  unfold encode
  rw [M.bind_ok (M.get_apply _), M.bind_ok (M.get_apply _), if_neg (by simp [he]), if_neg (by simp [he]), he]
  simp only [encCore, encStruct, isEnum_append hf, hf, and_self, if_true, List.cons_append]
  rw [if_neg (by rw [append_fields_length]; omega), if_neg (by omega)]
  rw [show Val.uint n :: (vs ++ ws) = (Val.uint n :: vs) ++ ws from rfl,
    encNth_append gs ws fs (n + 1) (.uint n :: vs) (by simpa using hl) hn]

theorem decode_enum {fs : Fields} (hf : fs.isEnum = true) {vs : List Val} {d : Dec} (he : d.enc = .borsh) :
    decode (.struct fs) (.struct vs) d = (readUint8 >>= fun tag =>
      if tag + 1 ≥ fs.length then M.err .enumTooLarge
      else decNth .borsh fs (tag + 1) vs >>= fun xs => pure (.struct (.uint tag :: xs.tail))) { d with cur := some .le } := by
  unfold decode
  rw [M.bind_ok (M.get_apply _), if_neg (by simp [he])]
  simp only [decCore, decStruct, hf, he, and_self, if_true, Val.fields]
  rw [M.bind_ok (show setCurD .le d = (.ok (), { d with cur := some .le }) from rfl), he]

theorem decNth_cons {e : Encoding} : (fs : Fields) → (i : Nat) → (vs : List Val) → ∀ d xs d', decNth e fs i vs d = (.ok xs, d') →
    xs.length = vs.length
  | .nil, i, vs, d, xs, d', h => by simp [decNth] at h
  | .cons m t fs, 0, [], d, xs, d', h => by simp [decNth] at h
  | .cons m t fs, 0, v :: vs, d, xs, d', h => by
    simp only [decNth, bind_ok_iff, M.pure_apply, Prod.mk.injEq, Res.ok.injEq] at h
    obtain ⟨_, _, _, _, _, _, rfl, _⟩ := h
    rfl
  | .cons m t fs, i + 1, [], d, xs, d', h => by simp [decNth] at h
  | .cons m t fs, i + 1, v :: vs, d, xs, d', h => by
    simp only [decNth, bind_ok_iff, M.pure_apply, Prod.mk.injEq, Res.ok.injEq] at h
    obtain ⟨ys, _, h1, rfl, _⟩ := h
    simp [decNth_cons fs i vs _ _ _ h1]

/-- C103, enums, decoding from any bytes: what the older version reads, the newer one reads too, to the same value; the older version
refuses the added variants, and other failures are the same. -/
theorem C103_variant_decode (fs gs : Fields) (hf : fs.isEnum = true) (v : Val) (vs ws : List Val) (hl : vs.length + 1 = fs.length)
    (d : Dec) (he : d.enc = .borsh) :
    (∃ d', decode (.struct fs) (.struct (v :: vs)) d = (.err .enumTooLarge, d')) ∨
    (∃ n xs d', decode (.struct fs) (.struct (v :: vs)) d = (.ok (.struct (.uint n :: xs)), d') ∧
      decode (.struct (fs.append gs)) (.struct (v :: vs ++ ws)) d = (.ok (.struct (.uint n :: xs ++ ws)), d')) ∨
    ((∀ x, (decode (.struct fs) (.struct (v :: vs)) d).1 ≠ .ok x) ∧
      decode (.struct (fs.append gs)) (.struct (v :: vs ++ ws)) d = decode (.struct fs) (.struct (v :: vs)) d) := by
  rw [decode_enum hf he, decode_enum (isEnum_append hf) he]
  cases hr : readUint8 { d with cur := some .le } with
  | mk r d1 =>
    cases r with
    | err x => rw [M.bind_err hr, M.bind_err hr]; exact .inr (.inr ⟨(fun x h => nomatch h), rfl⟩)
    | panic => rw [M.bind_panic hr, M.bind_panic hr]; exact .inr (.inr ⟨(fun x h => nomatch h), rfl⟩)
    | ok tag =>
      rw [M.bind_ok hr, M.bind_ok hr]
      by_cases ht : tag + 1 ≥ fs.length
      · rw [if_pos ht]; exact .inl ⟨d1, rfl⟩
      · rw [if_neg ht, if_neg (by rw [append_fields_length]; omega),
          show v :: vs ++ ws = (v :: vs) ++ ws from rfl,
          decNth_append gs ws fs (tag + 1) (v :: vs) (by simpa using hl) (by omega)]
        cases hd : decNth .borsh fs (tag + 1) (v :: vs) d1 with
        | mk r d2 =>
          cases r with
          | err x =>
            rw [M.bind_err hd, M.bind_err (M.bind_err hd)]
            exact .inr (.inr ⟨(fun x h => nomatch h), rfl⟩)
          | panic =>
            rw [M.bind_panic hd, M.bind_panic (M.bind_panic hd)]
            exact .inr (.inr ⟨(fun x h => nomatch h), rfl⟩)
          | ok xs =>
            rw [M.bind_ok hd]
            refine .inr (.inl ⟨tag, xs.tail, d2, rfl, ?_⟩)
            rw [M.bind_ok (show (decNth .borsh fs (tag + 1) (v :: vs) >>= fun xs => pure (xs ++ ws)) d1 = (.ok (xs ++ ws), d2) by
              rw [M.bind_ok hd]; rfl)]
            have := decNth_cons fs _ _ _ _ _ hd
            match xs, this with
            | x :: xs, _ => rfl

/-- A third variant. -/
def twoVariants : Fields := .cons { name := [69], tag := { isEnum := true } } .borshEnum
  (.cons { name := [65] } (.uint .w8 false) (.cons { name := [66] } .bool .nil))

example : twoVariants.isEnum = true ∧
    unmarshal .borsh (.struct twoVariants) (.struct [.uint 0, .uint 0, .bool false]) [1, 1] = .ok (.struct [.uint 1, .uint 0, .bool true]) ∧
    unmarshal .borsh (.struct (twoVariants.append (.cons { name := [67] } .str .nil))) (.struct [.uint 0, .uint 0, .bool false, .str []]) [1, 1] =
      .ok (.struct [.uint 1, .uint 0, .bool true, .str []]) ∧
    unmarshal .borsh (.struct twoVariants) (.struct [.uint 0, .uint 0, .bool false]) [2, 0, 0, 0, 0] = .err .enumTooLarge := by
  refine ⟨rfl, by decide +kernel, by decide +kernel, by decide +kernel⟩

end Verif.Props
