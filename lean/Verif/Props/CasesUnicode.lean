import Verif.Props.Cases
import Verif.Proofs.HeckRunes
/-! C65 outside ASCII: what holds as long as no upper-case letter divides a word. -/
namespace Verif.Props
open Verif Verif.Spec

/-- Letters and digits, by the Unicode tables. -/
def alnumU (U : Uni) (r : Nat) : Bool := U.isLetter r || U.isDigit r

/-- C65, the part that holds outside ASCII: a text of any code points without upper-case letters becomes its words in lower
case, spliced by underscores. Missing: texts with upper-case letters, see `C65_violated`. -/
theorem C65_snake_partial (U : Uni) (h95 : alnumU U 95 = false) (rs : List Nat) (hs : ∀ r ∈ rs, Scalar r ∧ U.isUpper r = false)
    (ws : List (List Nat)) (hw : Words (alnumU U) rs ws) :
    toRustSnakeCase U (rs.flatMap utf8) =
      .ok (spliced [95] (ws.map fun w => w.flatMap fun r => utf8 (U.toLower r))) := by
  unfold toRustSnakeCase splitIntoWords
  rw [runesOf_utf8 fun r hr => (hs r hr).1,
    show fieldsFunc (fun r => !(U.isLetter r || U.isDigit r)) (rs.map fun r => (r, utf8 r)) [] = _ from fieldsFunc_words hw]
  exact (heckWords_whole U _ [95] _ ws fun w hx => by
    obtain ⟨a, b, c⟩ := hw.mem w hx
    refine ⟨a, fun r hr => ⟨(hs r (c r hr)).1, fun he => ?_, (hs r (c r hr)).2⟩, ?_⟩
    · have := b r hr
      rw [he, h95] at this
      cases this
    · rw [mapRunes_utf8 _ fun r hr => (hs r (c r hr)).1]).1 []

/-- C65 for Pascal case: the words run together, each with its first code point in upper case, provided that each word of
several code points starts with an ASCII one. Missing: the other words, see `C65_violated`. -/
theorem C65_pascal_partial (U : Uni) (h95 : alnumU U 95 = false) (rs : List Nat)
    (hs : ∀ r ∈ rs, Scalar r ∧ U.isUpper r = false ∧ r ≠ 0x3A3) (ws : List (List Nat)) (hw : Words (alnumU U) rs ws)
    (hh : ∀ c d cs, c :: d :: cs ∈ ws → c < 0x80) :
    toPascalCase U (rs.flatMap utf8) = .ok (spliced [] (ws.map (capital U))) := by
  unfold toPascalCase splitIntoWords
  rw [runesOf_utf8 fun r hr => (hs r hr).1,
    show fieldsFunc (fun r => !(U.isLetter r || U.isDigit r)) (rs.map fun r => (r, utf8 r)) [] = _ from fieldsFunc_words hw]
  exact (heckWords_whole U _ [] _ ws fun w hx => by
    obtain ⟨a, b, c⟩ := hw.mem w hx
    refine ⟨a, fun r hr => ⟨(hs r (c r hr)).1, fun he => ?_, (hs r (c r hr)).2.1⟩, ?_⟩
    · have := b r hr
      rw [he, h95] at this
      cases this
    · cases w with
      | nil => exact absurd rfl a
      | cons x xs =>
        refine heckCapitalize_plain U x xs (fun r hr => (hs r (c r hr)).1) (fun hm => (hs _ (c _ (by simp [hm]))).2.2 rfl) ?_
        cases xs with
        | nil => exact .inl rfl
        | cons y ys => exact .inr (hh x y ys hx)).1 []

/-- Every text has words, so that the two theorems speak about all texts without upper-case letters. -/
theorem C65_words (U : Uni) (rs : List Nat) : ∃ ws, Words (alnumU U) rs ws := words_exist _ rs

/-- Tables that know é (U+E9, É is U+C9), 中 (U+4E2D) and 𝛼 (U+1D6FC) besides ASCII. -/
def someUni : Uni :=
  { asciiUni with
    isLetter := fun r => asciiUni.isLetter r || r == 0xE9 || r == 0x4E2D || r == 0x1D6FC
    isLower := fun r => asciiUni.isLower r || r == 0xE9 || r == 0x1D6FC
    toUpper := fun r => if r = 0xE9 then 0xC9 else asciiUni.toUpper r }

/-- "é中-𝛼" -/
example : toRustSnakeCase someUni ([0xE9, 0x4E2D, 45, 0x1D6FC].flatMap utf8) =
    .ok ([0xE9, 0x4E2D, 95, 0x1D6FC].flatMap utf8) :=
  C65_snake_partial someUni (by decide +kernel) _ (by unfold Scalar; decide +kernel) [[0xE9, 0x4E2D], [0x1D6FC]]
    (.more [] [0xE9, 0x4E2D] 45 [0x1D6FC] [[0x1D6FC]] (by simp) (by simp) (by decide +kernel) (by decide +kernel)
      (.last [] [0x1D6FC] (by simp) (by simp) (by decide +kernel)))
/-- "aé é" -/
example : toPascalCase someUni ([97, 0xE9, 32, 0xE9].flatMap utf8) = .ok ([65, 0xE9, 0xC9].flatMap utf8) :=
  C65_pascal_partial someUni (by decide +kernel) _ (by unfold Scalar; decide +kernel) [[97, 0xE9], [0xE9]]
    (.more [] [97, 0xE9] 32 [0xE9] [[0xE9]] (by simp) (by simp) (by decide +kernel) (by decide +kernel)
      (.last [] [0xE9] (by simp) (by simp) (by decide +kernel)))
    (by intro c d cs h; simp at h; omega)

end Verif.Props
