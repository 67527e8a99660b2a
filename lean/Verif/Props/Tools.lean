import Verif.Model.Tools
import Verif.Proofs.Text
import Verif.Props.Json
/-! Property C61: formatting of byte slices. -/
namespace Verif.Props
open Verif

/-- The decimal texts of the bytes, in order, with ", " between neighbours. -/
inductive Listing : Bytes → Bytes → Prop
  | nil : Listing [] []
  | one (b : UInt8) (t : Bytes) : DecimalText b.toNat t → Listing [b] t
  | cons (b c : UInt8) (bs t ts : Bytes) : DecimalText b.toNat t → Listing (c :: bs) ts →
      Listing (b :: c :: bs) (t ++ [44, 32] ++ ts)

theorem decimal_text (n : Nat) : DecimalText n (decimal n) := decimalInt_text n

theorem joinComma_listing : ∀ buf : Bytes, Listing buf (joinComma (buf.map fun b => decimal b.toNat))
  | [] => .nil
  | [b] => .one b _ (decimal_text _)
  | b :: c :: bs => .cons b c bs _ _ (decimal_text _) (joinComma_listing (c :: bs))

/-- C61: the bytes in decimal in order, and the length. -/
theorem C61_format (buf : Bytes) :
    (∃ l n, Listing buf l ∧ DecimalText buf.length n ∧
      formatByteSlice buf = "{".toUTF8.toList ++ l ++ "}(len=".toUTF8.toList ++ n ++ ")".toUTF8.toList) ∧
    ∃ l, Listing buf l ∧ formatDiscriminator buf = "{".toUTF8.toList ++ l ++ "}".toUTF8.toList := by
  have e1 : "{".toUTF8.toList = [123] := by decide +kernel
  have e2 : "}".toUTF8.toList = [125] := by decide +kernel
  have e3 : ")".toUTF8.toList = [41] := by decide +kernel
  have e4 : "}(len=".toUTF8.toList = [125, 40, 108, 101, 110, 61] := by decide +kernel
  rw [e1, e2, e3, e4]
  refine ⟨⟨_, _, joinComma_listing buf, decimal_text _, ?_⟩, _, joinComma_listing buf, rfl⟩
  simp [formatByteSlice, braced]

example : formatByteSlice [0, 7, 255] = "{0, 7, 255}(len=3)".toUTF8.toList := by decide +kernel

theorem digits_until (a b : Bytes) (ha : ∀ x ∈ a, isDigit x = true) (hb : ∀ x ∈ b, isDigit x = true) (x y : UInt8)
    (hx : isDigit x = false) (hy : isDigit y = false) (s t : Bytes) (h : a ++ x :: s = b ++ y :: t) :
    a = b ∧ x :: s = y :: t := by
  have key : ∀ (a : Bytes) (x : UInt8) (s : Bytes), (∀ x ∈ a, isDigit x = true) → isDigit x = false →
      (a ++ x :: s).takeWhile isDigit = a := by
    intro a x s ha hx
    induction a with
    | nil => simp [List.takeWhile, hx]
    | cons c a ih => rw [List.cons_append, List.takeWhile_cons, if_pos (ha c (by simp)), ih fun z hz => ha z (by simp [hz])]
  have h1 := key a x s ha hx
  rw [h, key b y t hb hy] at h1
  subst h1
  exact ⟨rfl, List.append_cancel_left h⟩

theorem decimal_inj {m n : Nat} (h : decimal m = decimal n) : m = n := by
  have := decimal_value m
  rw [h, decimal_value n] at this
  exact (Option.some.inj this).symm

/-- Reading back: what stands before the closing brace determines the bytes. -/
theorem listing_inj : ∀ (a b : Bytes) (s t : Bytes),
    joinComma (a.map fun b => decimal b.toNat) ++ 125 :: s = joinComma (b.map fun b => decimal b.toNat) ++ 125 :: t →
    a = b
  | [], [], _, _, _ => rfl
  | [], b :: bs, s, t, h => by
    obtain ⟨x, l, hx, hd⟩ := decimal_head b.toNat
    have : ∃ l', joinComma ((b :: bs).map fun b => decimal b.toNat) = x :: l' := by
      cases bs with
      | nil => exact ⟨l, hx⟩
      | cons c bs => exact ⟨l ++ [44, 32] ++ joinComma ((c :: bs).map fun b => decimal b.toNat), by
          simp only [List.map_cons, joinComma, hx]; simp⟩
    obtain ⟨l', hl'⟩ := this
    rw [hl'] at h
    simp only [List.map_nil, joinComma, List.nil_append, List.cons_append, List.cons.injEq] at h
    rw [← h.1] at hd
    exact absurd hd (by decide)
  | b :: bs, [], s, t, h => by
    obtain ⟨x, l, hx, hd⟩ := decimal_head b.toNat
    have : ∃ l', joinComma ((b :: bs).map fun b => decimal b.toNat) = x :: l' := by
      cases bs with
      | nil => exact ⟨l, hx⟩
      | cons c bs => exact ⟨l ++ [44, 32] ++ joinComma ((c :: bs).map fun b => decimal b.toNat), by
          simp only [List.map_cons, joinComma, hx]; simp⟩
    obtain ⟨l', hl'⟩ := this
    rw [hl'] at h
    simp only [List.map_nil, joinComma, List.nil_append, List.cons_append, List.cons.injEq] at h
    rw [h.1] at hd
    exact absurd hd (by decide)
  | [a], [b], s, t, h => by
    have := (digits_until _ _ (decimal_digits _) (decimal_digits _) 125 125 (by decide) (by decide) s t h).1
    rw [UInt8.toNat_inj.mp (decimal_inj this)]
  | [a], b :: c :: bs, s, t, h => by
    simp only [List.map_cons, List.map_nil, joinComma, List.append_assoc, List.cons_append, List.nil_append] at h
    have := (digits_until _ _ (decimal_digits _) (decimal_digits _) 125 44 (by decide) (by decide) _ _ h).2
    cases this
  | a :: c :: as, [b], s, t, h => by
    simp only [List.map_cons, List.map_nil, joinComma, List.append_assoc, List.cons_append, List.nil_append] at h
    have := (digits_until _ _ (decimal_digits _) (decimal_digits _) 44 125 (by decide) (by decide) _ _ h).2
    cases this
  | a :: c :: as, b :: d :: bs, s, t, h => by
    simp only [List.map_cons, joinComma, List.append_assoc, List.cons_append, List.nil_append] at h
    obtain ⟨h1, h2⟩ := digits_until _ _ (decimal_digits _) (decimal_digits _) 44 44 (by decide) (by decide) _ _ h
    simp only [List.cons.injEq, true_and] at h2
    rw [UInt8.toNat_inj.mp (decimal_inj h1), listing_inj (c :: as) (d :: bs) s t h2]

/-- C61: different byte slices format differently. -/
theorem C61_injective (a b : Bytes) :
    (formatByteSlice a = formatByteSlice b → a = b) ∧ (formatDiscriminator a = formatDiscriminator b → a = b) := by
  constructor
  · intro h
    refine listing_inj a b ([40, 108, 101, 110, 61] ++ decimal a.length ++ [41])
      ([40, 108, 101, 110, 61] ++ decimal b.length ++ [41]) ?_
    simpa [formatByteSlice, braced] using h
  · intro h
    refine listing_inj a b [] [] ?_
    simpa [formatDiscriminator, braced] using h

theorem recLines_inj : ∀ (i : Nat) (a b : List Bytes), recLines i a = recLines i b → a = b
  | _, [], [], _ => rfl
  | i, [], b :: bs, h => by simp [recLines] at h
  | i, a :: as, [], h => by simp [recLines] at h
  | i, a :: as, b :: bs, h => by
    simp only [recLines, List.append_assoc] at h
    have h1 := List.append_cancel_left (List.append_cancel_left (List.append_cancel_left h))
    have hab : a = b := by
      refine listing_inj a b ([40, 108, 101, 110, 61] ++ decimal a.length ++ [41] ++ [10] ++ recLines (i + 1) as)
        ([40, 108, 101, 110, 61] ++ decimal b.length ++ [41] ++ [10] ++ recLines (i + 1) bs) ?_
      simpa [formatByteSlice, braced] using h1
    subst hab
    rw [recLines_inj (i + 1) as bs (List.append_cancel_left (List.append_cancel_left h1))]

/-- C66: the report of a recorder tells histories of writes apart, also those that differ in chunking only. -/
theorem C66_injective (name : Bytes) (a b : List Bytes) (h : recString name a = recString name b) : a = b :=
  recLines_inj 0 a b (List.append_cancel_left h)

/-- One line `- index: {bytes}(len=n)`. -/
def Line (i : Nat) (v line : Bytes) : Prop :=
  ∃ n l k, DecimalText i n ∧ Listing v l ∧ DecimalText v.length k ∧
    line = "- ".toUTF8.toList ++ n ++ ": {".toUTF8.toList ++ l ++ "}(len=".toUTF8.toList ++ k ++ ")\n".toUTF8.toList

theorem recLines_lines : ∀ (i : Nat) (ws : List Bytes), ∃ lines : List Bytes, lines.length = ws.length ∧
    (∀ (j : Nat) (v line : Bytes), ws[j]? = some v → lines[j]? = some line → Line (i + j) v line) ∧
    recLines i ws = lines.flatten
  | i, [] => ⟨[], rfl, by simp, rfl⟩
  | i, v :: vs => by
    obtain ⟨lines, h1, h2, h3⟩ := recLines_lines (i + 1) vs
    refine ⟨([45, 32] ++ decimal i ++ [58, 32] ++ formatByteSlice v ++ [10]) :: lines, by simp [h1], ?_, ?_⟩
    · intro j w line hw hl
      cases j with
      | zero =>
        simp only [List.getElem?_cons_zero, Option.some.injEq] at hw hl
        subst hw; subst hl
        have e1 : "- ".toUTF8.toList = [45, 32] := by decide +kernel
        have e2 : ": {".toUTF8.toList = [58, 32, 123] := by decide +kernel
        have e3 : ")\n".toUTF8.toList = [41, 10] := by decide +kernel
        have e4 : "}(len=".toUTF8.toList = [125, 40, 108, 101, 110, 61] := by decide +kernel
        refine ⟨_, _, _, decimal_text _, joinComma_listing v, decimal_text _, ?_⟩
        rw [e1, e2, e3, e4]
        simp [formatByteSlice, braced]
      | succ j =>
        simp only [List.getElem?_cons_succ] at hw hl
        have := h2 j w line hw hl
        rwa [show i + 1 + j = i + (j + 1) by omega] at this
    · rw [recLines, h3, List.flatten_cons]

/-- C66: one line per write, in order, numbered from zero, after the name if there is one. -/
theorem C66_format (name : Bytes) (ws : List Bytes) : ∃ lines : List Bytes, lines.length = ws.length ∧
    (∀ (j : Nat) (v line : Bytes), ws[j]? = some v → lines[j]? = some line → Line j v line) ∧
    recString name ws = (if name = [] then [] else name ++ ":\n".toUTF8.toList) ++ lines.flatten := by
  obtain ⟨lines, h1, h2, h3⟩ := recLines_lines 0 ws
  refine ⟨lines, h1, fun j v line hv hl => ?_, ?_⟩
  · have := h2 j v line hv hl
    rwa [Nat.zero_add] at this
  · have e : ":\n".toUTF8.toList = [58, 10] := by decide +kernel
    rw [recString, h3, e]
    by_cases hn : name = [] <;> simp [hn]

example : recString "rec".toUTF8.toList [[1, 2], []] = "rec:\n- 0: {1, 2}(len=2)\n- 1: {}(len=0)\n".toUTF8.toList := by
  decide +kernel

end Verif.Props
