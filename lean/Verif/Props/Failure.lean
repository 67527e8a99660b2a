import Verif.Proofs.FillField
import Verif.Props.Robust
/-!
# C76, C77: the destination after a failed decode
-/
namespace Verif.Props
open Spec

/-- `decodeInto` is `decode` with the content of the variable added: same outcome, same value, same decoder. -/
theorem C76_same (t : Ty) (old : Val) (d : Dec) :
    decode t old d =
      ((match (decodeInto t old d).1 with
        | .ok () => .ok (decodeInto t old d).2.1
        | .err e => .err e
        | .panic => .panic), (decodeInto t old d).2.2) := by
  rw [← run_decodeInto]
  unfold Fill.run
  rcases decodeInto t old d with ⟨_ | _ | _, a, d'⟩ <;> rfl

private theorem decodeInto_eq {e : Encoding} (hv : e.valid = true) (t : Ty) (old : Val) (d : Dec) (hd : d.enc = e) :
    decodeInto t old d = fillCore e t {} old { d with cur := some .le } := by
  have hne : ¬ d.enc = .other := by rw [hd]; intro h; rw [h] at hv; cases hv
  unfold decodeInto
  simp only [Fill.read, M.get_apply, if_neg hne, setCurD, M.modify_apply]
  rw [hd]

private theorem decode_eq {e : Encoding} (hv : e.valid = true) (t : Ty) (old : Val) (d : Dec) (hd : d.enc = e) :
    decode t old d = decCore e t {} old { d with cur := some .le } := by
  have hne : ¬ d.enc = .other := by rw [hd]; intro h; rw [h] at hv; cases hv
  unfold decode
  rw [M.bind_apply, M.get_apply]
  simp only []
  rw [if_neg hne]
  subst hd
  rw [M.bind_apply]
  rfl

theorem joined_enum {fs gs : Fields} (h : (joined fs gs).isEnum = false) : fs.isEnum = false := by
  cases fs with
  | nil => rfl
  | cons m t fs =>
    rw [joined] at h
    cases t <;> first | rfl | exact h

theorem joined_decodable {e : Encoding} (gs : Fields) : ∀ (fs : Fields) (negs : List Bytes) (seen : Bool),
    decodableFields e (joined fs gs) negs seen = true → decodableFields e fs negs seen = true
  | .nil, _, _, _ => by simp [decodableFields]
  | .cons m t fs, negs, seen, h => by
    simp only [joined, decodableFields] at h ⊢
    split at h
    · rename_i hs
      rw [if_pos hs]
      exact joined_decodable gs fs _ _ h
    · rename_i hs
      rw [if_neg hs]
      rw [Bool.and_eq_true] at h ⊢
      exact ⟨h.1, joined_decodable gs fs _ _ h.2⟩

theorem shapedFields_append {N : Nat} : ∀ (fs gs : Fields) (xs ys : List Val), xs.length = fs.length →
    ShapedFields N (joined fs gs) (xs ++ ys) → ShapedFields N fs xs
  | .nil, _, xs, _, hl, _ => by
    cases xs with
    | nil => simp [ShapedFields]
    | cons => simp [Fields.length] at hl
  | .cons m t fs, gs, [], _, hl, _ => by simp [Fields.length] at hl
  | .cons m t fs, gs, x :: xs, ys, hl, h => by
    simp only [joined, List.cons_append, ShapedFields] at h ⊢
    exact ⟨h.1, shapedFields_append fs gs xs ys (by simpa [Fields.length] using hl) h.2⟩

theorem shapedFields_length {N : Nat} : ∀ (fs : Fields) (vs : List Val), ShapedFields N fs vs → vs.length = fs.length
  | .nil, [], _ => rfl
  | .nil, _ :: _, h => by simp [ShapedFields] at h
  | .cons .., [], h => by simp [ShapedFields] at h
  | .cons m t fs, v :: vs, h => by
    simp only [ShapedFields] at h
    simp [Fields.length, shapedFields_length fs vs h.2]

theorem lookupSize_none {n : Bytes} : ∀ {sm : List (Bytes × Int)}, (∀ p ∈ sm, p.1 ≠ n) → lookupSize n sm = none
  | [], _ => rfl
  | (m, s) :: sm, h => by
    rw [lookupSize, if_neg (h (m, s) (by simp))]
    exact lookupSize_none fun p hp => h p (by simp [hp])

/-- C76: a failed decode of a struct has stopped in one field.  The fields before it hold what decoding them alone gives, the
fields behind it hold what they held before.  The field itself holds what a failed decode of it alone leaves there; in Borsh
a field of a library type is as before. -/
theorem C76_fields {e : Encoding} (he : e.valid = true) (fs : Fields) (hn : ¬ (e = .borsh ∧ fs.isEnum = true))
    (ht : decodable e (.struct fs) false = true) (os : List Val) {N : Nat} (hold : Shaped N (.struct fs) (.struct os))
    (d d' : Dec) (hi : Inside d) (hd : d.enc = e) (er : Err) (after : Val)
    (h : decodeInto (.struct fs) (.struct os) d = (.err er, after, d')) :
    ∃ before m t behind olds old rest xs x d1,
      fs = joined before (.cons m t behind) ∧ os = olds ++ old :: rest ∧ olds.length = before.length ∧
      after = .struct (xs ++ x :: rest) ∧ xs.length = before.length ∧
      decode (.struct before) (.struct olds) d = (.ok (.struct xs), d1) ∧
      m.tag.skip = false ∧ m.exported = true ∧
      (m.tag.option = false → m.tag.coption = false → m.tag.order = .le → m.name ∉ announces before →
        (e = .borsh → t.directLib = none) → decodeInto t old d1 = (.err er, x, d')) ∧
      (e = .borsh → t.directLib ≠ none → x = old) := by
  rw [decodeInto_eq he _ _ _ hd] at h
  simp only [fillCore, fillStruct, if_neg hn, Val.fields] at h
  obtain ⟨ws, h1, rfl⟩ := Fill.wrap_err h
  obtain ⟨s⟩ := fillFields_stopped e er fs [] false os _ ws d' h1
  have hn1 : ¬ (e = .borsh ∧ s.before.isEnum = true) := by
    rintro ⟨h2, h3⟩
    have : fs.isEnum = false := by
      cases hf : fs.isEnum
      · rfl
      · exact absurd ⟨h2, hf⟩ hn
    rw [s.hfs] at this
    rw [joined_enum this] at h3
    cases h3
  have hdec : decode (.struct s.before) (.struct s.olds) d = (.ok (.struct s.xs), s.d1) := by
    rw [decode_eq he _ _ _ hd]
    simp only [decCore, decStruct, if_neg hn1, Val.fields]
    rw [M.bind_ok s.hxs]
    rfl
  have htb : decodable e (.struct s.before) false = true := by
    simp only [decodable, if_neg hn, if_neg hn1] at ht ⊢
    rw [s.hfs] at ht
    exact joined_decodable _ _ _ _ ht
  have hob : ShapedFields N s.before s.olds := by
    simp only [Shaped] at hold
    refine shapedFields_append s.before (.cons s.m s.t s.behind) s.olds (s.old :: s.rest) s.hlen ?_
    rw [← s.hfs, ← s.hos]
    exact hold
  obtain ⟨res, k, c, hr, hk, -, hq⟩ := decode_safe he (.struct s.before) (.struct s.olds) htb d hi hd
    (N := max N d.rest.length) (by omega)
    (shaped_mono (N := N) (by omega) (.struct s.before) (.struct s.olds) (by simpa only [Shaped] using hob))
  rw [hdec] at hr
  simp only [Prod.mk.injEq] at hr
  have hshape := hq _ hr.1.symm
  have hxl : s.xs.length = s.before.length := shapedFields_length _ _ (by simpa only [Shaped] using hshape)
  refine ⟨s.before, s.m, s.t, s.behind, s.olds, s.old, s.rest, s.xs, s.x, s.d1, s.hfs, s.hos, s.hlen,
    by rw [← s.hafter], hxl, hdec, s.hskip, s.hexp, ?_, ?_⟩
  · intro ho hc hor hname hdl
    have hnone : (if e = .borsh then s.t.directLib else none) = none := by
      split
      · exact hdl (by assumption)
      · rfl
    have hopt : fieldOpt s.m s.sm' = {} := by
      unfold fieldOpt
      rw [ho, hc, hor, lookupSize_none (s.hsm _ (by simp) hname)]
    rcases s.hfield with ⟨h2, l, p, h3, -⟩ | ⟨-, h3⟩
    · rw [if_pos h2, h3] at hnone; cases hnone
    rw [hopt] at h3
    have hd1 : s.d1.enc = e := by rw [hr.2]; exact hd
    rw [decodeInto_eq he _ _ _ hd1, ← h3]
    simp [fillField, Fill.read, setCurD]
  · intro h2 h3
    rcases s.hfield with ⟨-, l, p, -, h4, -⟩ | ⟨h4, -⟩
    · exact h4
    · rw [if_pos h2] at h4; exact absurd h4 h3

/-- A struct whose third field does not get enough bytes: the first is complete, the second was skipped, the third is zero,
the fourth is as before. -/
example :
    let fs : Fields := .cons { name := [65] } (.uint .w16 false) <| .cons { name := [66], tag := { skip := true } } .bool <|
      .cons { name := [67] } (.int .w32 false) <| .cons { name := [68] } .str .nil
    decodable .bin (.struct fs) false = true ∧
    (match decodeInto (.struct fs) (.struct [.uint 1, .bool true, .int 7, .str [120]]) (Dec.new [5, 0, 1, 2, 3] .bin) with
      | (.err .notEnough, .struct [.uint 5, .bool true, .int 0, .str [120]], _) => true
      | _ => false) = true := by
  refine ⟨by decide, ?_⟩
  decide +kernel

/-! ### slices and enums -/

private theorem collect_err {f : Fill Val} {er : Err} : ∀ {n : Nat} {d d' : Dec} {xs : List Val},
    Fill.collect f n d = (.err er, xs, d') → ∃ d1, repeatM f.run xs.length d = (.ok xs, d1)
  | 0, d, d', xs, h => by simp [Fill.collect, Fill.done] at h
  | n + 1, d, d', xs, h => by
    rw [Fill.collect] at h
    rcases Fill.part_err h with ⟨a, -, rfl⟩ | ⟨a, d1, h1, h2⟩
    · exact ⟨d, rfl⟩
    · obtain ⟨ys, h3, rfl⟩ := Fill.wrap_err h2
      obtain ⟨d2, h4⟩ := collect_err h3
      refine ⟨d2, ?_⟩
      rw [List.length_cons, repeatM, M.bind_ok (Fill.run_ok h1), M.bind_ok h4]
      rfl

private theorem traverse_replicate {f : Val → DM Val} {z : Val} : ∀ n, traverseM f (List.replicate n z) = repeatM (f z) n
  | 0 => rfl
  | n + 1 => by simp [List.replicate, traverseM, repeatM, traverse_replicate n]

/-- C76 for slices: after a failure the variable is as before, or holds the elements that were complete.  They are what
decoding an array of that many elements gives. -/
theorem C76_slice {e : Encoding} (he : e.valid = true) (t : Ty) (old : Val) (d d' : Dec) (hi : Inside d) (hd : d.enc = e)
    (er : Err) (after : Val) (h : decodeInto (.slice t) old d = (.err er, after, d')) :
    after = old ∨ ∃ xs d1 d2, after = .seq (some xs) ∧ t.uintKind = none ∧
      decode (.array xs.length t) (Ty.array xs.length t).zero d1 = (.ok (.arr xs), d2) ∧ d1.enc = e ∧ d1.data = d.data := by
  rw [decodeInto_eq he _ _ _ hd] at h
  simp only [fillCore] at h
  have hin : Inside { d with cur := some .le } := hi
  rcases Fill.read_err h with ⟨-, h1⟩ | ⟨l, d1, h1, h2⟩
  · exact .inl h1
  have hd1 : d1.enc = e ∧ d1.data = d.data := by
    rw [M.bind_apply] at h1
    obtain ⟨r, k, hr, -, -⟩ := readSeqLen_prim he { d with cur := some .le } hin (by rw [show Dec.enc _ = d.enc from rfl, hd]; exact he)
    rw [hr] at h1
    cases r <;> simp at h1
    rw [← h1.2]
    exact ⟨hd, rfl⟩
  by_cases hb : e = .borsh ∧ l = 0
  · rw [if_pos hb] at h2; simp [Fill.done] at h2
  rw [if_neg hb] at h2
  rcases Fill.read_err h2 with ⟨-, h3⟩ | ⟨d2, d3, h3, h4⟩
  · exact .inl h3
  simp at h3
  obtain ⟨rfl, rfl⟩ := h3
  split at h4
  · simp [Fill.stop] at h4; exact .inl h4.2.1.symm
  cases hu : t.uintKind with
  | some w =>
    rw [hu] at h4
    simp only [Fill.assign] at h4
    split at h4 <;> simp at h4
    exact .inl h4.2.1.symm
  | none =>
    rw [hu] at h4
    obtain ⟨xs, h5, rfl⟩ := Fill.wrap_err h4
    obtain ⟨d2, h6⟩ := collect_err h5
    have h6' : ∃ d2, repeatM (do setCurD .le; decCore e t {} t.zero) xs.length { d1 with cur := some .le } = (.ok xs, d2) := by
      simp only [Fill.run_read, run_fillCore] at h6
      cases xs with
      | nil => exact ⟨_, rfl⟩
      | cons x xs =>
        refine ⟨d2, ?_⟩
        rw [← h6, List.length_cons, repeatM]
        simp [M.bind_apply, setCurD]
    obtain ⟨d3, h7⟩ := h6'
    refine .inr ⟨xs, d1, d3, rfl, rfl, ?_, hd1⟩
    rw [decode_eq he _ _ _ hd1.1]
    simp only [decCore, hu, Ty.zero, Val.elems, traverse_replicate]
    rw [M.bind_ok h7]
    rfl

/-- Two of three strings were read. -/
example : (match decodeInto (.slice .str) (.seq none) (Dec.new [3, 0, 0, 0, 1, 0, 0, 0, 65, 1, 0, 0, 0, 66, 9] .borsh) with
      | (.err .notEnough, .seq (some [.str [65], .str [66]]), _) => true
      | _ => false) = true := by decide +kernel

private theorem fillNth_err {e : Encoding} {er : Err} : ∀ {fs : Fields} {i : Nat} {vs ws : List Val} {d d' : Dec},
    fillNth e fs i vs d = (.err er, ws, d') → ∃ x, ws = vs.set i x
  | .cons _ t _, 0, v :: vs, ws, d, d', h => by
    simp only [fillNth] at h
    rcases Fill.read_err h with ⟨-, rfl⟩ | ⟨_, d1, _, h2⟩
    · exact ⟨v, rfl⟩
    · obtain ⟨x, -, rfl⟩ := Fill.wrap_err h2
      exact ⟨x, rfl⟩
  | .cons _ _ fs, i + 1, v :: vs, ws, d, d', h => by
    simp only [fillNth] at h
    obtain ⟨us, h1, rfl⟩ := Fill.wrap_err h
    obtain ⟨x, rfl⟩ := fillNth_err h1
    exact ⟨x, rfl⟩
  | .nil, _, _, _, _, _, h => by simp [fillNth, Fill.stop] at h
  | .cons _ _ _, _, [], _, _, _, h => by simp [fillNth, Fill.stop] at h

/-- C76 for Borsh enums: after a failure the variable is as before, or the tag has been stored and at most the selected
variant has changed. -/
theorem C76_enum (fs : Fields) (hf : fs.isEnum = true) (o : Val) (os : List Val) (d d' : Dec) (hd : d.enc = .borsh)
    (er : Err) (after : Val) (h : decodeInto (.struct fs) (.struct (o :: os)) d = (.err er, after, d')) :
    after = .struct (o :: os) ∨ ∃ tag x, after = .struct (.uint tag :: os.set tag x) := by
  rw [decodeInto_eq rfl _ _ _ hd] at h
  simp only [fillCore, fillStruct, Val.fields] at h
  rw [if_pos ⟨trivial, hf⟩] at h
  rcases Fill.read_err h with ⟨-, h1⟩ | ⟨tag, d1, h1, h2⟩
  · exact .inl h1
  · by_cases hl : tag + 1 ≥ fs.length
    · rw [if_pos hl] at h2
      simp [Fill.stop] at h2
      refine .inr ⟨tag, os[tag]?.getD o, ?_⟩
      rw [← h2.2.1]
      congr 2
      by_cases h : tag < os.length
      · simp [List.getElem?_eq_getElem h]
      · rw [List.set_eq_of_length_le (by omega)]
    · rw [if_neg hl] at h2
      obtain ⟨ws, h3, rfl⟩ := Fill.wrap_err h2
      obtain ⟨x, rfl⟩ := fillNth_err h3
      exact .inr ⟨tag, x, by simp⟩

/-- The refused tag is stored. -/
example :
    let fs : Fields := .cons { name := [69], tag := { isEnum := true } } .borshEnum (.cons { name := [65] } .bool .nil)
    fs.isEnum = true ∧
    (match decodeInto (.struct fs) (.struct [.uint 0, .bool true]) (Dec.new [9] .borsh) with
      | (.err .enumTooLarge, .struct [.uint 9, .bool true], _) => true
      | _ => false) = true := by
  refine ⟨rfl, ?_⟩
  decide +kernel

/-- C76: the variable can be used again.  Whatever bytes were decoded into it, decoding other bytes into it does not panic,
and where decoding overwrites everything the result is that of a fresh variable. -/
theorem C76_reusable {e : Encoding} (he : e.valid = true) (t : Ty) (ht : decodable e t false = true) (old : Val) {N : Nat}
    (hold : Shaped N t old) (d : Dec) (hi : Inside d) (hd : d.enc = e) (b : Bytes) :
    unmarshal e t (decodeInto t old d).2.1 b ≠ .panic ∧
      (overwrites e t = true → unmarshal e t (decodeInto t old d).2.1 b = unmarshal e t t.zero b) := by
  have hs := decodeInto_safe he t old ht d hi hd (N := max N d.rest.length) (by omega) (shaped_mono (by omega) t old hold)
  exact ⟨(C33_no_panic he t ht (Dec.new b e) (Dec.new_ok b e) rfl _ hs).1, fun hw => C36_overwrites_partial he t ht hw b _ hs⟩

/-! ### C77 -/

/-- C77 is false: the scalar that could not be read is zero afterwards, and the fields before it have been replaced. -/
theorem C77_violated :
    (∀ (e : Encoding), e.valid = true → ∃ d', decodeInto (.uint .w8 false) (.uint 7) (Dec.new [] e) = (.err .notEnough, .uint 0, d')) ∧
    (∀ (e : Encoding), e.valid = true → ∃ d',
      decodeInto (.struct (.cons { name := [65] } .bool (.cons { name := [66] } .str .nil))) (.struct [.bool false, .str [120]])
        (Dec.new [1] e) = (.err (if e = .compactU16 then .eof else .notEnough), .struct [.bool true, .str [120]], d')) := by
  refine ⟨?_, ?_⟩ <;> intro e he <;> cases e <;> first | exact ⟨_, rfl⟩ | cases he

/-- C77, the types whose variables are as before after a failure: strings, the library's own types, slices and arrays of
unsigned integers. -/
theorem C77_kept_partial {e : Encoding} (he : e.valid = true) (t : Ty)
    (ht : t = .str ∨ (∃ l, t = .lib l) ∨ (∃ w b, t = .slice (.uint w b)) ∨ (∃ n w b, t = .array n (.uint w b)))
    (old : Val) (d d' : Dec) (hd : d.enc = e) (er : Err) (after : Val)
    (h : decodeInto t old d = (.err er, after, d')) : after = old := by
  rw [decodeInto_eq he _ _ _ hd] at h
  have hassign : ∀ {m : DM Val} {d}, Fill.assign m old d = (.err er, after, d') → after = old := by
    intro m d h
    unfold Fill.assign at h
    split at h <;> simp at h
    exact h.2.1.symm
  rcases ht with rfl | ⟨l, rfl⟩ | ⟨w, b, rfl⟩ | ⟨n, w, b, rfl⟩
  · simp only [fillCore, fillPlain] at h
    exact hassign h
  · simp only [fillCore] at h
    exact hassign h
  · simp only [fillCore] at h
    rcases Fill.read_err h with ⟨-, h1⟩ | ⟨l, d1, -, h2⟩
    · exact h1
    · split at h2
      · simp [Fill.done] at h2
      · rcases Fill.read_err h2 with ⟨-, h1⟩ | ⟨d2, d3, -, h3⟩
        · exact h1
        · split at h3
          · simp [Fill.stop] at h3; exact h3.2.1.symm
          · exact hassign h3
  · simp only [fillCore, Ty.uintKind] at h
    exact hassign h

/-- C77, what happens to scalars: zero. -/
theorem C77_scalar_partial {e : Encoding} (he : e.valid = true) (t : Ty)
    (ht : t = .bool ∨ t = .f32 ∨ t = .f64 ∨ (∃ w b, t = .uint w b) ∨ (∃ w b, t = .int w b))
    (old : Val) (d d' : Dec) (hd : d.enc = e) (er : Err) (after : Val)
    (h : decodeInto t old d = (.err er, after, d')) : after = t.zero := by
  rw [decodeInto_eq he _ _ _ hd] at h
  have hassign : ∀ {m : DM Val} {d} {z}, Fill.assign m z d = (.err er, after, d') → after = z := by
    intro m d z h
    unfold Fill.assign at h
    split at h <;> simp at h
    exact h.2.1.symm
  rcases ht with rfl | rfl | rfl | ⟨w, b, rfl⟩ | ⟨w, b, rfl⟩ <;>
    (simp only [fillCore, fillPlain] at h; exact hassign h)

/-- A failed decode of a slice of integers. -/
example : (match decodeInto (.slice (.uint .w16 false)) (.seq (some [.uint 3])) (Dec.new [2, 1, 0] .bin) with
      | (.err .eof, .seq (some [.uint 3]), _) => true
      | _ => false) = true := by decide +kernel

end Verif.Props
