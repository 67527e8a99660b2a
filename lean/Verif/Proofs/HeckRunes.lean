import Verif.Model.Heck
import Verif.Spec.Words
import Verif.Proofs.Utf8
import Verif.Proofs.JsonString
/-! heck.go on text outside ASCII without upper-case letters. -/
namespace Verif
open Verif.Spec

theorem runeValue2 (a b : UInt8) : runeValue [a, b] = (a.toNat - 0xC0) * 64 + (b.toNat - 0x80) := rfl
theorem runeValue3 (a b c : UInt8) :
    runeValue [a, b, c] = (a.toNat - 0xE0) * 4096 + (b.toNat - 0x80) * 64 + (c.toNat - 0x80) := rfl
theorem runeValue4 (a b c d : UInt8) : runeValue [a, b, c, d] =
    (a.toNat - 0xF0) * 262144 + (b.toNat - 0x80) * 4096 + (c.toNat - 0x80) * 64 + (d.toNat - 0x80) := rfl

/-- The value of an encoded code point. -/
theorem runeValue_utf8 {r : Nat} (h : Scalar r) : runeValue (utf8 r) = r := by
  have hr := h.1
  clear h
  unfold utf8
  by_cases h1 : r < 0x80
  · rw [if_pos h1]
    exact u8nat _ (by omega)
  · rw [if_neg h1]
    by_cases h2 : r < 0x800
    · rw [if_pos h2, runeValue2, u8nat _ (by omega), u8nat _ (by omega)]; omega
    · rw [if_neg h2]
      by_cases h3 : r < 0x10000
      · rw [if_pos h3, runeValue3, u8nat _ (by omega), u8nat _ (by omega), u8nat _ (by omega)]; omega
      · rw [if_neg h3, runeValue4, u8nat _ (by omega), u8nat _ (by omega), u8nat _ (by omega), u8nat _ (by omega)]; omega

theorem runesAux_utf8 : ∀ (rs : List Nat) (f : Nat), (∀ r ∈ rs, Scalar r) → (rs.flatMap utf8).length ≤ f →
    runesAux f (rs.flatMap utf8) = rs.map fun r => (r, utf8 r)
  | [], f, _, _ => by cases f <;> rfl
  | r :: rs, f, h, hf => by
    rw [List.flatMap_cons] at hf ⊢
    have hw := runeWidth_complete (h r (by simp)) (rs.flatMap utf8)
    have hpos : 0 < (utf8 r).length := List.length_pos_iff.mpr (utf8_ne_nil r)
    have ht : (utf8 r ++ rs.flatMap utf8).take (utf8 r).length = utf8 r := by simp
    have hd : (utf8 r ++ rs.flatMap utf8).drop (utf8 r).length = rs.flatMap utf8 := by simp
    have hrest : (rs.flatMap utf8).length + (utf8 r).length ≤ f := by rw [List.length_append] at hf; omega
    generalize he : utf8 r ++ rs.flatMap utf8 = x at *
    cases f with
    | zero => omega
    | succ f =>
      cases x with
      | nil => exact absurd (List.append_eq_nil_iff.mp he).1 (utf8_ne_nil r)
      | cons b tl =>
        rw [runesAux, hw]
        simp only [ht, hd]
        rw [runesAux_utf8 rs f (fun x hx => h x (by simp [hx])) (by omega), runeValue_utf8 (h r (by simp))]
        rfl

/-- `range` over valid UTF-8 gives the code points. -/
theorem runesOf_utf8 {rs : List Nat} (h : ∀ r ∈ rs, Scalar r) : runesOf (rs.flatMap utf8) = rs.map fun r => (r, utf8 r) :=
  runesAux_utf8 rs _ h (Nat.le_refl _)

theorem runes_utf8 {rs : List Nat} (h : ∀ r ∈ rs, Scalar r) : (runesOf (rs.flatMap utf8)).map (·.1) = rs := by
  rw [runesOf_utf8 h, List.map_map]
  exact List.map_id rs

theorem mapRunes_utf8 (f : Nat → Nat) {rs : List Nat} (h : ∀ r ∈ rs, Scalar r) :
    mapRunes f (rs.flatMap utf8) = rs.flatMap fun r => utf8 (f r) := by
  unfold mapRunes
  rw [runesOf_utf8 h, List.flatMap_map]
  rfl

theorem fieldsFunc_sep (p : Nat → Bool) (sep : List Nat) (h : ∀ r ∈ sep, p r = false) (tl : List (Nat × Bytes)) :
    fieldsFunc (fun r => !p r) ((sep.map fun r => (r, utf8 r)) ++ tl) [] = fieldsFunc (fun r => !p r) tl [] := by
  induction sep with
  | nil => rfl
  | cons r sep ih =>
    rw [List.map_cons, List.cons_append, fieldsFunc]
    simp only [h r (by simp), Bool.not_false, if_true]
    exact ih fun x hx => h x (by simp [hx])

theorem fieldsFunc_word (p : Nat → Bool) (w : List Nat) (h : ∀ r ∈ w, p r = true) (tl : List (Nat × Bytes)) (cur : Bytes) :
    fieldsFunc (fun r => !p r) ((w.map fun r => (r, utf8 r)) ++ tl) cur =
      fieldsFunc (fun r => !p r) tl (cur ++ w.flatMap utf8) := by
  induction w generalizing cur with
  | nil => simp
  | cons r w ih =>
    rw [List.map_cons, List.cons_append, fieldsFunc]
    simp only [h r (by simp), Bool.not_true, Bool.false_eq_true, if_false]
    rw [ih (fun x hx => h x (by simp [hx])), List.flatMap_cons, List.append_assoc]

theorem word_ne_nil {w : List Nat} (h : w ≠ []) : w.flatMap utf8 ≠ [] := by
  cases w with
  | nil => exact absurd rfl h
  | cons r w =>
    rw [List.flatMap_cons]
    exact fun he => utf8_ne_nil r (List.append_eq_nil_iff.mp he).1

theorem fieldsFunc_words {p : Nat → Bool} {rs : List Nat} {ws : List (List Nat)} (h : Words p rs ws) :
    fieldsFunc (fun r => !p r) (rs.map fun r => (r, utf8 r)) [] = ws.map fun w => w.flatMap utf8 := by
  induction h with
  | none sep hs =>
    have := fieldsFunc_sep p sep hs []
    rw [List.append_nil] at this
    rw [this]; rfl
  | last sep w hs hne hw =>
    have := fieldsFunc_word p w hw [] []
    rw [List.append_nil, List.nil_append] at this
    rw [List.map_append, fieldsFunc_sep p sep hs, this, fieldsFunc, if_neg (word_ne_nil hne)]
    rfl
  | more sep w r rest ws hs hne hw hr _ ih =>
    rw [List.map_append, List.map_append, List.append_assoc, fieldsFunc_sep p sep hs, fieldsFunc_word p w hw, List.nil_append,
      List.map_cons, fieldsFunc]
    simp only [hr, Bool.not_false, if_true]
    rw [if_neg (word_ne_nil hne), ih, List.map_cons]

/-- Every text has its words. -/
theorem words_exist (p : Nat → Bool) (rs : List Nat) : ∃ ws, Words p rs ws := by
  have key : ∀ (n : Nat) (rs : List Nat), rs.length ≤ n → ∃ ws, Words p rs ws := by
    intro n
    induction n with
    | zero =>
      intro rs h
      cases rs with
      | nil => exact ⟨[], .none [] (by simp)⟩
      | cons r rs => simp at h
    | succ n ih =>
      intro rs h
      cases rs with
      | nil => exact ⟨[], .none [] (by simp)⟩
      | cons r rs =>
        obtain ⟨ws, hw⟩ := ih rs (by simpa using h)
        cases hp : p r with
        | false =>
          cases hw with
          | none _ hs => exact ⟨_, .none _ (by simpa [hp] using hs)⟩
          | last sep w hs hne hw =>
            exact ⟨_, .last (r :: sep) w (by simpa [hp] using hs) hne hw⟩
          | more sep w r' rest ws hs hne hw hr hrest =>
            exact ⟨_, .more (r :: sep) w r' rest ws (by simpa [hp] using hs) hne hw hr hrest⟩
        | true =>
          cases hw with
          | none _ hs =>
            cases rs with
            | nil => exact ⟨_, .last [] [r] (by simp) (by simp) (by simp [hp])⟩
            | cons q rs =>
              exact ⟨_, .more [] [r] q rs [] (by simp) (by simp) (by simp [hp]) (hs q (by simp))
                (.none _ fun x hx => hs x (by simp [hx]))⟩
          | last sep w hs hne hw =>
            cases sep with
            | nil => exact ⟨_, .last [] (r :: w) (by simp) (by simp) (by simpa [hp] using hw)⟩
            | cons q sep =>
              exact ⟨_, .more [] [r] q (sep ++ w) [w] (by simp) (by simp) (by simp [hp]) (hs q (by simp))
                (.last sep w (fun x hx => hs x (by simp [hx])) hne hw)⟩
          | more sep w r' rest ws hs hne hw hr hrest =>
            cases sep with
            | nil => exact ⟨_, .more [] (r :: w) r' rest ws (by simp) (by simp) (by simpa [hp] using hw) hr hrest⟩
            | cons q sep =>
              exact ⟨_, .more [] [r] q (sep ++ w ++ r' :: rest) (w :: ws) (by simp) (by simp) (by simp [hp]) (hs q (by simp))
                (.more sep w r' rest ws (fun x hx => hs x (by simp [hx])) hne hw hr hrest)⟩
  exact key _ rs (Nat.le_refl _)

/-- A word without upper-case letters is not divided. -/
theorem heckWord_whole (U : Uni) (ww : Bytes → Res Bytes) (sep word : Bytes) : ∀ (c : Nat) (cs : List Nat) (i : Nat)
    (mode : WordMode) (first : Bool) (out : Bytes), (∀ r ∈ c :: cs, r ≠ 95 ∧ U.isUpper r = false) →
    heckWord U ww sep word (c :: cs) i 0 mode first out =
      match heckEmit ww sep (.ok word) first out with
      | .ok o => .ok (false, o)
      | .err x => .err x
      | .panic => .panic
  | c, [], i, mode, first, out, h => by
    have hc := h c (by simp)
    have hg : goSlice word 0 word.length = .ok word := by simp [goSlice]
    unfold heckWord
    rw [if_neg hc.1, hg]
    rfl
  | c, n :: cs, i, mode, first, out, h => by
    have hc := h c (by simp)
    have hn := h n (by simp)
    unfold heckWord
    rw [if_neg hc.1]
    simp only []
    rw [if_neg (by rw [hn.2]; simp [hn.1]), if_neg (by rw [hc.2]; simp)]
    exact heckWord_whole U ww sep word n cs (i + 1) _ first out fun r hr => h r (by simp [hr])

theorem heckWords_whole (U : Uni) (ww : Bytes → Res Bytes) (sep : Bytes) (f : List Nat → Bytes) : ∀ (ws : List (List Nat)),
    (∀ w ∈ ws, w ≠ [] ∧ (∀ r ∈ w, Scalar r ∧ r ≠ 95 ∧ U.isUpper r = false) ∧ ww (w.flatMap utf8) = .ok (f w)) →
    (∀ out, heckWords U ww sep (ws.map fun w => w.flatMap utf8) true out = .ok (out ++ spliced sep (ws.map f))) ∧
    ∀ out, heckWords U ww sep (ws.map fun w => w.flatMap utf8) false out =
      .ok (out ++ if ws = [] then [] else sep ++ spliced sep (ws.map f))
  | [], _ => by simp [heckWords, spliced]
  | w :: ws, h => by
    obtain ⟨hne, hr, hw⟩ := h w (by simp)
    obtain ⟨-, i2⟩ := heckWords_whole U ww sep f ws fun x hx => h x (by simp [hx])
    have key : ∀ first out, heckWord U ww sep (w.flatMap utf8) ((runesOf (w.flatMap utf8)).map (·.1)) 0 0 .boundary first out =
        .ok (false, out ++ (if first then [] else sep) ++ f w) := by
      intro first out
      rw [runes_utf8 fun r hx => (hr r hx).1]
      cases w with
      | nil => exact absurd rfl hne
      | cons c cs =>
        rw [heckWord_whole U ww sep _ c cs 0 .boundary first out fun r hx => (hr r hx).2]
        simp only [heckEmit, hw]
    have hj : f w ++ (if ws = [] then [] else sep ++ spliced sep (ws.map f)) = spliced sep ((w :: ws).map f) := by
      cases ws with
      | nil => simp [spliced]
      | cons x xs => simp [spliced]
    constructor
    · intro out
      simp only [List.map_cons, heckWords, key]
      rw [i2, ← List.map_cons, ← hj]
      simp
    · intro out
      simp only [List.map_cons, heckWords, key]
      rw [i2, if_neg (by simp), ← List.map_cons, ← hj]
      simp

theorem Spec.Words.mem {p : Nat → Bool} {rs : List Nat} {ws : List (List Nat)} (h : Words p rs ws) :
    ∀ w ∈ ws, w ≠ [] ∧ (∀ r ∈ w, p r = true) ∧ ∀ r ∈ w, r ∈ rs := by
  induction h with
  | none => simp
  | last sep w hs hne hw =>
    intro x hx
    cases List.mem_singleton.mp hx
    exact ⟨hne, hw, fun r hr => by simp [hr]⟩
  | more sep w r rest ws hs hne hw hr _ ih =>
    intro x hx
    rcases List.mem_cons.mp hx with rfl | hx
    · exact ⟨hne, hw, fun r hr => by simp [hr]⟩
    · obtain ⟨a, b, c⟩ := ih x hx
      exact ⟨a, b, fun q hq => by simp [c q hq]⟩

theorem heckLowercase_plain (U : Uni) (rs : List Nat) (h : 0x3A3 ∉ rs) :
    heckLowercase U rs = rs.flatMap fun r => utf8 (U.toLower r) := by
  induction rs with
  | nil => rfl
  | cons r rs ih =>
    rw [heckLowercase, if_neg (fun hc => h (by simp [hc.1])), ih (fun hx => h (by simp [hx])), List.flatMap_cons]
    rfl

/-- The code points of a word with the first one in upper case. -/
def capital (U : Uni) : List Nat → Bytes
  | [] => []
  | c :: cs => utf8 (U.toUpper c) ++ cs.flatMap fun r => utf8 (U.toLower r)

theorem heckCapitalize_plain (U : Uni) (c : Nat) (cs : List Nat) (h : ∀ r ∈ c :: cs, Scalar r) (hs : 0x3A3 ∉ cs)
    (hc : cs = [] ∨ c < 0x80) : heckCapitalize U ((c :: cs).flatMap utf8) = .ok (capital U (c :: cs)) := by
  unfold heckCapitalize
  rw [runesOf_utf8 h]
  cases cs with
  | nil => simp only [List.map_cons, List.map_nil, capital, List.flatMap_nil, List.append_nil]; rfl
  | cons d cs =>
    have hc' : c < 0x80 := by rcases hc with h | h; · cases h
                              · exact h
    have hu : utf8 c = [UInt8.ofNat c] := by rw [utf8, if_pos hc']
    have hg : goSlice ((c :: d :: cs).flatMap utf8) 1 ((c :: d :: cs).flatMap utf8).length = .ok ((d :: cs).flatMap utf8) := by
      rw [List.flatMap_cons, hu]
      generalize (d :: cs).flatMap utf8 = x
      simp [goSlice]
    simp only [List.map_cons]
    rw [hg]
    simp only []
    rw [runes_utf8 fun r hr => h r (List.mem_cons_of_mem _ hr), heckLowercase_plain U _ hs]
    rfl

end Verif
