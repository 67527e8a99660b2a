import Verif.Model.Tags
/-! Property C53: struct tags. -/
set_option linter.unusedSimpArgs false
namespace Verif.Props
open Verif

/-- The bytes of a word. -/
def word (s : String) : Bytes := s.toUTF8.toList

/-- The words with one space between neighbours. -/
def spaced : List Bytes → Bytes
  | [] => []
  | [w] => w
  | w :: ws => w ++ 32 :: spaced ws

/-- `ws` are the space-separated words of `s`. -/
def Words (s : Bytes) (ws : List Bytes) : Prop := ws ≠ [] ∧ (∀ w ∈ ws, (32 : UInt8) ∉ w) ∧ s = spaced ws

/-- Unicode white space, by code point. -/
def whites : List Nat :=
  [9, 10, 11, 12, 13, 0x20, 0x85, 0xA0, 0x1680, 0x2000, 0x2001, 0x2002, 0x2003, 0x2004, 0x2005, 0x2006, 0x2007, 0x2008,
   0x2009, 0x200A, 0x2028, 0x2029, 0x202F, 0x205F, 0x3000]

/-- White space characters as bytes. -/
def whiteBytes : List Bytes := whites.map fun n => (String.singleton (Char.ofNat n)).toUTF8.toList

/-- Only white space. -/
inductive Blank : Bytes → Prop
  | nil : Blank []
  | cons (e s : Bytes) : e ∈ whiteBytes → Blank s → Blank (e ++ s)

/-- The value says `true`, possibly with white space around it. -/
def SaysTrue (v : Bytes) : Prop := ∃ l r, Blank l ∧ Blank r ∧ v = l ++ word "true" ++ r

theorem word_sizeof : word "sizeof=" = kwSizeof := by decide +kernel
theorem word_big : word "big" = kwBig := by decide +kernel
theorem word_little : word "little" = kwLittle := by decide +kernel
theorem word_optional : word "optional" = kwOptional := by decide +kernel
theorem word_option : word "option" = kwOption := by decide +kernel
theorem word_coption : word "coption" = kwCoption := by decide +kernel
theorem word_extension : word "binary_extension" = kwExtension := by decide +kernel
theorem word_dash : word "-" = kwDash := by decide +kernel
theorem word_skip : word "skip" = kwSkip := by decide +kernel
theorem word_enum : word "enum" = kwEnum := by decide +kernel
theorem word_true : word "true" = kwTrue := by decide +kernel

theorem splitSpaceAux_word (w : Bytes) (hw : (32 : UInt8) ∉ w) : ∀ (s cur : Bytes),
    splitSpaceAux (w ++ s) cur = splitSpaceAux s (cur ++ w) := by
  induction w with
  | nil => intro s cur; simp
  | cons b w ih =>
    intro s cur
    rw [List.mem_cons, not_or] at hw
    rw [List.cons_append, splitSpaceAux, if_neg (Ne.symm hw.1), ih hw.2]
    simp

theorem splitSpace_words {s : Bytes} {ws : List Bytes} (h : Words s ws) : splitSpace s = ws := by
  obtain ⟨hne, hsp, rfl⟩ := h
  unfold splitSpace
  induction ws with
  | nil => exact absurd rfl hne
  | cons w ws ih =>
    have hw := hsp w (by simp)
    cases ws with
    | nil =>
      have := splitSpaceAux_word w hw [] []
      simpa [spaced, splitSpaceAux] using this
    | cons v ws =>
      rw [spaced, splitSpaceAux_word w hw _ [], splitSpaceAux, if_pos rfl,
        ih (by simp) (fun x hx => hsp x (by simp only [List.mem_cons] at hx ⊢; exact .inr hx))]
      · simp
      · simp

/-- Every tag string has its words. -/
theorem words_exist (s : Bytes) : ∃ ws, Words s ws := by
  induction s with
  | nil => exact ⟨[[]], by simp, by simp, rfl⟩
  | cons b s ih =>
    obtain ⟨ws, hne, hsp, hs⟩ := ih
    cases ws with
    | nil => exact absurd rfl hne
    | cons w ws =>
      by_cases hb : b = 32
      · subst hb
        refine ⟨[] :: w :: ws, by simp, ?_, ?_⟩
        · intro x hx
          rcases List.mem_cons.mp hx with rfl | hx
          · simp
          · exact hsp x hx
        · rw [spaced]
          · simp [hs]
          · simp
      · refine ⟨(b :: w) :: ws, by simp, ?_, ?_⟩
        · intro x hx
          rcases List.mem_cons.mp hx with rfl | hx
          · rw [List.mem_cons, not_or]; exact ⟨Ne.symm hb, hsp w (by simp)⟩
          · exact hsp x (by simp [hx])
        · rw [hs]
          cases ws with
          | nil => rfl
          | cons v ws => simp [spaced]

/-! white space -/

theorem whiteBytes_eq : whiteBytes = spaceRunes := by decide +kernel

theorem prefix_free : ∀ a ∈ spaceRunes, ∀ b ∈ spaceRunes, a.isPrefixOf b = true → a = b := by decide +kernel
theorem suffix_free : ∀ a ∈ spaceRunes, ∀ b ∈ spaceRunes, a.isSuffixOf b = true → a = b := by decide +kernel
theorem space_ne : ∀ a ∈ spaceRunes, a ≠ [] := by decide +kernel
theorem space_true : ∀ a ∈ spaceRunes, a.head? ≠ some 116 ∧ a.getLast? ≠ some 101 := by decide +kernel

theorem find_prefix {e s : Bytes} (he : e ∈ spaceRunes) : spaceRunes.find? (·.isPrefixOf (e ++ s)) = some e := by
  cases hf : spaceRunes.find? (·.isPrefixOf (e ++ s)) with
  | none =>
    have := List.find?_eq_none.mp hf e he
    simp at this
  | some a =>
    have hp := List.find?_some hf
    have hm := List.mem_of_find?_eq_some hf
    simp only [List.isPrefixOf_iff_prefix] at hp
    congr 1
    rcases List.prefix_or_prefix_of_prefix hp (List.prefix_append e s) with h | h
    · exact prefix_free a hm e he (List.isPrefixOf_iff_prefix.mpr h)
    · exact (prefix_free e he a hm (List.isPrefixOf_iff_prefix.mpr h)).symm

theorem find_suffix {e s : Bytes} (he : e ∈ spaceRunes) : spaceRunes.find? (·.isSuffixOf (s ++ e)) = some e := by
  cases hf : spaceRunes.find? (·.isSuffixOf (s ++ e)) with
  | none =>
    have := List.find?_eq_none.mp hf e he
    simp at this
  | some a =>
    have hp := List.find?_some hf
    have hm := List.mem_of_find?_eq_some hf
    simp only [List.isSuffixOf_iff_suffix] at hp
    congr 1
    rcases List.suffix_or_suffix_of_suffix hp (List.suffix_append s e) with h | h
    · exact suffix_free a hm e he (List.isSuffixOf_iff_suffix.mpr h)
    · exact (suffix_free e he a hm (List.isSuffixOf_iff_suffix.mpr h)).symm

theorem trimLeft_split : ∀ (f : Nat) (s : Bytes), ∃ l, Blank l ∧ s = l ++ trimLeftAux f s
  | 0, s => ⟨[], .nil, rfl⟩
  | f + 1, s => by
    rw [trimLeftAux]
    cases hf : spaceRunes.find? (·.isPrefixOf s) with
    | none => exact ⟨[], .nil, rfl⟩
    | some e =>
      have hp := List.find?_some hf
      have hm := List.mem_of_find?_eq_some hf
      simp only [List.isPrefixOf_iff_prefix] at hp
      obtain ⟨t, rfl⟩ := hp
      obtain ⟨l, hl, hs⟩ := trimLeft_split f t
      refine ⟨e ++ l, .cons e l (whiteBytes_eq ▸ hm) hl, ?_⟩
      simp only [List.drop_left, List.append_assoc]
      rw [← hs]

theorem Blank.append {a b : Bytes} (ha : Blank a) (hb : Blank b) : Blank (a ++ b) := by
  induction ha with
  | nil => exact hb
  | cons e s he _ ih => rw [List.append_assoc]; exact .cons e _ he ih

theorem trimRight_split : ∀ (f : Nat) (s : Bytes), ∃ r, Blank r ∧ s = trimRightAux f s ++ r
  | 0, s => ⟨[], .nil, by simp [trimRightAux]⟩
  | f + 1, s => by
    rw [trimRightAux]
    cases hf : spaceRunes.find? (·.isSuffixOf s) with
    | none => exact ⟨[], .nil, by simp⟩
    | some e =>
      have hp := List.find?_some hf
      have hm := List.mem_of_find?_eq_some hf
      simp only [List.isSuffixOf_iff_suffix] at hp
      obtain ⟨t, rfl⟩ := hp
      obtain ⟨r, hr, hs⟩ := trimRight_split f t
      refine ⟨r ++ e, hr.append (by have := Blank.cons e [] (whiteBytes_eq ▸ hm) .nil; rwa [List.append_nil] at this), ?_⟩
      simp only []
      rw [List.length_append, Nat.add_sub_cancel, List.take_left, ← List.append_assoc, ← hs]

theorem trimLeft_blank {l : Bytes} (hl : Blank l) (r : Bytes) : ∀ f, l.length ≤ f →
    trimLeftAux f (l ++ (kwTrue ++ r)) = kwTrue ++ r := by
  induction hl with
  | nil =>
    intro f _
    cases f with
    | zero => rfl
    | succ f =>
      rw [trimLeftAux, List.nil_append]
      have : spaceRunes.find? (·.isPrefixOf (kwTrue ++ r)) = none := by
        rw [List.find?_eq_none]
        intro e he hp
        rw [List.isPrefixOf_iff_prefix] at hp
        have h1 := space_ne e he
        have h2 := (space_true e he).1
        cases e with
        | nil => exact h1 rfl
        | cons x e =>
          obtain ⟨t, ht⟩ := hp
          simp only [kwTrue, List.cons_append, List.cons.injEq] at ht
          exact h2 (by rw [ht.1]; rfl)
      rw [this]
  | cons e s he _ ih =>
    rw [whiteBytes_eq] at he
    intro f hf
    have hne := space_ne e he
    have hlen : 1 ≤ e.length := by
      cases e with
      | nil => exact absurd rfl hne
      | cons x e => simp
    rw [List.length_append] at hf
    cases f with
    | zero => omega
    | succ f =>
      rw [trimLeftAux, List.append_assoc, find_prefix he]
      simp only [List.drop_left]
      exact ih f (by omega)

theorem Blank.snoc {s : Bytes} (h : Blank s) : s = [] ∨ ∃ a e, Blank a ∧ e ∈ whiteBytes ∧ s = a ++ e := by
  induction h with
  | nil => exact .inl rfl
  | cons e s he _ ih =>
    right
    rcases ih with rfl | ⟨a, e', ha, he', rfl⟩
    · exact ⟨[], e, .nil, he, by simp⟩
    · exact ⟨e ++ a, e', .cons e a he ha, he', by simp⟩

theorem trimRight_blank (f : Nat) : ∀ (r : Bytes), Blank r → r.length ≤ f → trimRightAux f (kwTrue ++ r) = kwTrue := by
  have hnone : spaceRunes.find? (·.isSuffixOf kwTrue) = none := by decide +kernel
  induction f with
  | zero =>
    intro r _ h
    have : r = [] := List.length_eq_zero_iff.mp (by omega)
    subst this; rfl
  | succ f ih =>
    intro r hr h
    rcases hr.snoc with rfl | ⟨a, e, ha, he, rfl⟩
    · rw [List.append_nil, trimRightAux, hnone]
    · rw [whiteBytes_eq] at he
      have hne := space_ne e he
      have hlen : 1 ≤ e.length := by
        cases e with
        | nil => exact absurd rfl hne
        | cons x e => simp
      rw [List.length_append] at h
      rw [trimRightAux, ← List.append_assoc, find_suffix he]
      simp only []
      rw [List.length_append, Nat.add_sub_cancel, List.take_left]
      exact ih a ha (by omega)

theorem trimSpace_true (v : Bytes) : trimSpace v = kwTrue ↔ SaysTrue v := by
  unfold trimSpace SaysTrue
  rw [word_true]
  constructor
  · intro h
    obtain ⟨l, hl, h1⟩ := trimLeft_split v.length v
    obtain ⟨r, hr, h2⟩ := trimRight_split (trimLeftAux v.length v).length (trimLeftAux v.length v)
    simp only [] at h
    rw [h] at h2
    refine ⟨l, r, hl, hr, ?_⟩
    rw [List.append_assoc, ← h2, ← h1]
  · rintro ⟨l, r, hl, hr, rfl⟩
    have h1 := trimLeft_blank hl r (l ++ kwTrue ++ r).length (by simp)
    rw [← List.append_assoc] at h1
    simp only [h1]
    exact trimRight_blank _ r hr (by simp)

/-! one word -/

/-- The word says which field gets `sizeof`. -/
def IsSizeof (w : Bytes) : Prop := ∃ x, w = word "sizeof=" ++ x

theorem isSizeof_iff (w : Bytes) : kwSizeof.isPrefixOf w = true ↔ IsSizeof w := by
  unfold IsSizeof
  rw [word_sizeof, List.isPrefixOf_iff_prefix]
  constructor
  · rintro ⟨x, rfl⟩; exact ⟨x, rfl⟩
  · rintro ⟨x, rfl⟩; exact ⟨x, rfl⟩

theorem afterEq_sizeof (x : Bytes) : afterEq (word "sizeof=" ++ x) = x := by
  rw [word_sizeof]; rfl

theorem tagWord_sizeof (t : FieldTag) (x : Bytes) : tagWord t (word "sizeof=" ++ x) = { t with sizeOf := x } := by
  rw [tagWord, if_pos ((isSizeof_iff _).mpr ⟨x, rfl⟩), afterEq_sizeof]

/-- Flags a single word sets. -/
theorem tagWord_flags (t : FieldTag) (w : Bytes) :
    (tagWord t w).skip = (t.skip || (decide (w = kwDash) || decide (w = kwSkip))) ∧
    (tagWord t w).option = (t.option || (decide (w = kwOptional) || decide (w = kwOption))) ∧
    (tagWord t w).coption = (t.coption || decide (w = kwCoption)) ∧
    (tagWord t w).binExt = (t.binExt || decide (w = kwExtension)) ∧
    (tagWord t w).isEnum = (t.isEnum || decide (w = kwEnum)) ∧
    (tagWord t w).order = (if w = kwBig then .be else if w = kwLittle then .le else t.order) ∧
    (¬ IsSizeof w → (tagWord t w).sizeOf = t.sizeOf) := by
  rw [← isSizeof_iff]
  have hk : kwSizeof.isPrefixOf w = true → w ≠ kwDash ∧ w ≠ kwSkip ∧ w ≠ kwOptional ∧ w ≠ kwOption ∧ w ≠ kwCoption ∧
      w ≠ kwExtension ∧ w ≠ kwEnum ∧ w ≠ kwBig ∧ w ≠ kwLittle := by
    intro h
    refine ⟨?_, ?_, ?_, ?_, ?_, ?_, ?_, ?_, ?_⟩ <;> (intro e; rw [e] at h; revert h; decide)
  unfold tagWord
  by_cases h0 : kwSizeof.isPrefixOf w = true
  · obtain ⟨a, b, c, d, e, f, g, h, i⟩ := hk h0
    simp [h0, a, b, c, d, e, f, g, h, i]
  · rw [if_neg h0]
    by_cases h1 : w = kwBig
    · subst h1; simp [kwBig, kwDash, kwSkip, kwOptional, kwOption, kwCoption, kwExtension, kwEnum]
    by_cases h2 : w = kwLittle
    · subst h2; simp [kwBig, kwLittle, kwDash, kwSkip, kwOptional, kwOption, kwCoption, kwExtension, kwEnum]
    by_cases h3 : w = kwOptional
    · subst h3; simp [kwBig, kwLittle, kwDash, kwSkip, kwOptional, kwOption, kwCoption, kwExtension, kwEnum]
    by_cases h4 : w = kwOption
    · subst h4; simp [kwBig, kwLittle, kwDash, kwSkip, kwOptional, kwOption, kwCoption, kwExtension, kwEnum]
    by_cases h5 : w = kwCoption
    · subst h5; simp [kwBig, kwLittle, kwDash, kwSkip, kwOptional, kwOption, kwCoption, kwExtension, kwEnum]
    by_cases h6 : w = kwExtension
    · subst h6; simp [kwBig, kwLittle, kwDash, kwSkip, kwOptional, kwOption, kwCoption, kwExtension, kwEnum]
    by_cases h7 : w = kwDash
    · subst h7; simp [kwBig, kwLittle, kwDash, kwSkip, kwOptional, kwOption, kwCoption, kwExtension, kwEnum]
    by_cases h8 : w = kwSkip
    · subst h8; simp [kwBig, kwLittle, kwDash, kwSkip, kwOptional, kwOption, kwCoption, kwExtension, kwEnum]
    by_cases h9 : w = kwEnum
    · subst h9; simp [kwBig, kwLittle, kwDash, kwSkip, kwOptional, kwOption, kwCoption, kwExtension, kwEnum]
    simp [h1, h2, h3, h4, h5, h6, h7, h8, h9]

/-! all words -/

theorem foldl_flag (g : FieldTag → Bool) (p : Bytes → Bool) (h : ∀ t w, g (tagWord t w) = (g t || p w)) (ws : List Bytes) :
    ∀ t, g (ws.foldl tagWord t) = (g t || ws.any p) := by
  induction ws with
  | nil => intro t; simp
  | cons w ws ih => intro t; rw [List.foldl_cons, ih, h, List.any_cons, Bool.or_assoc]

theorem foldl_order (ws : List Bytes) : ∀ t, (ws.foldl tagWord t).order = .be ↔
    (∃ a b, ws = a ++ kwBig :: b ∧ kwLittle ∉ b) ∨ (t.order = .be ∧ kwLittle ∉ ws) := by
  induction ws with
  | nil => intro t; simp
  | cons w ws ih =>
    intro t
    rw [List.foldl_cons, ih, (tagWord_flags t w).2.2.2.2.2.1]
    have hbl : kwBig ≠ kwLittle := by decide
    constructor
    · rintro (⟨a, b, rfl, hb⟩ | ⟨ho, hl⟩)
      · exact .inl ⟨w :: a, b, rfl, hb⟩
      · by_cases h1 : w = kwBig
        · exact .inl ⟨[], ws, by rw [h1]; rfl, hl⟩
        · rw [if_neg h1] at ho
          by_cases h2 : w = kwLittle
          · rw [if_pos h2] at ho; cases ho
          · rw [if_neg h2] at ho
            exact .inr ⟨ho, by rw [List.mem_cons, not_or]; exact ⟨Ne.symm h2, hl⟩⟩
    · rintro (⟨a, b, hab, hb⟩ | ⟨ho, hl⟩)
      · cases a with
        | nil =>
          simp only [List.nil_append, List.cons.injEq] at hab
          obtain ⟨rfl, rfl⟩ := hab
          exact .inr ⟨by rw [if_pos rfl], hb⟩
        | cons x a =>
          simp only [List.cons_append, List.cons.injEq] at hab
          obtain ⟨rfl, rfl⟩ := hab
          exact .inl ⟨a, b, rfl, hb⟩
      · rw [List.mem_cons, not_or] at hl
        refine .inr ⟨?_, hl.2⟩
        by_cases h1 : w = kwBig
        · rw [if_pos h1]
        · rw [if_neg h1, if_neg (Ne.symm hl.1)]; exact ho

theorem foldl_sizeof (ws : List Bytes) (hno : ∀ w ∈ ws, ¬ IsSizeof w) : ∀ t, (ws.foldl tagWord t).sizeOf = t.sizeOf := by
  induction ws with
  | nil => intro t; rfl
  | cons w ws ih =>
    intro t
    rw [List.foldl_cons, ih (fun x hx => hno x (by simp [hx])), (tagWord_flags t w).2.2.2.2.2.2 (hno w (by simp))]

theorem parse_fields (bin bs be : Bytes) (ws : List Bytes) (h : Words bin ws) :
    (parseFieldTag bin bs be).skip = ((ws.foldl tagWord { order := .le }).skip || decide (trimSpace bs = kwTrue)) ∧
    (parseFieldTag bin bs be).isEnum = ((ws.foldl tagWord { order := .le }).isEnum || decide (trimSpace be = kwTrue)) ∧
    (parseFieldTag bin bs be).option = (ws.foldl tagWord { order := .le }).option ∧
    (parseFieldTag bin bs be).coption = (ws.foldl tagWord { order := .le }).coption ∧
    (parseFieldTag bin bs be).binExt = (ws.foldl tagWord { order := .le }).binExt ∧
    (parseFieldTag bin bs be).order = (ws.foldl tagWord { order := .le }).order ∧
    (parseFieldTag bin bs be).sizeOf = (ws.foldl tagWord { order := .le }).sizeOf := by
  unfold parseFieldTag
  simp only [splitSpace_words h]
  by_cases h1 : trimSpace bs = kwTrue <;> by_cases h2 : trimSpace be = kwTrue <;> simp [h1, h2]

/-- C53: each flag is set exactly when one of its words occurs, or the Borsh key says so. -/
theorem C53_flags (bin bs be : Bytes) (ws : List Bytes) (h : Words bin ws) :
    ((parseFieldTag bin bs be).skip = true ↔ word "-" ∈ ws ∨ word "skip" ∈ ws ∨ SaysTrue bs) ∧
    ((parseFieldTag bin bs be).isEnum = true ↔ word "enum" ∈ ws ∨ SaysTrue be) ∧
    ((parseFieldTag bin bs be).option = true ↔ word "optional" ∈ ws ∨ word "option" ∈ ws) ∧
    ((parseFieldTag bin bs be).coption = true ↔ word "coption" ∈ ws) ∧
    ((parseFieldTag bin bs be).binExt = true ↔ word "binary_extension" ∈ ws) := by
  obtain ⟨h1, h2, h3, h4, h5, _, _⟩ := parse_fields bin bs be ws h
  rw [word_dash, word_skip, word_enum, word_optional, word_option, word_coption, word_extension, ← trimSpace_true,
    ← trimSpace_true]
  have mem : ∀ k : Bytes, ws.any (fun w => decide (w = k)) = true ↔ k ∈ ws := by
    intro k; simp
  have mem2 : ∀ k k' : Bytes, ws.any (fun w => decide (w = k) || decide (w = k')) = true ↔ k ∈ ws ∨ k' ∈ ws := by
    intro k k'
    simp only [List.any_eq_true, Bool.or_eq_true, decide_eq_true_eq]
    constructor
    · rintro ⟨x, hx, rfl | rfl⟩
      · exact .inl hx
      · exact .inr hx
    · rintro (hx | hx)
      · exact ⟨_, hx, .inl rfl⟩
      · exact ⟨_, hx, .inr rfl⟩
  refine ⟨?_, ?_, ?_, ?_, ?_⟩
  · rw [h1, foldl_flag (·.skip) _ (fun t w => (tagWord_flags t w).1), Bool.false_or, Bool.or_eq_true, mem2,
      decide_eq_true_eq, or_assoc]
  · rw [h2, foldl_flag (·.isEnum) _ (fun t w => (tagWord_flags t w).2.2.2.2.1), Bool.false_or, Bool.or_eq_true, mem,
      decide_eq_true_eq]
  · rw [h3, foldl_flag (·.option) _ (fun t w => (tagWord_flags t w).2.1), Bool.false_or, mem2]
  · rw [h4, foldl_flag (·.coption) _ (fun t w => (tagWord_flags t w).2.2.1), Bool.false_or, mem]
  · rw [h5, foldl_flag (·.binExt) _ (fun t w => (tagWord_flags t w).2.2.2.1), Bool.false_or, mem]

/-- C53: big-endian exactly when "big" occurs with no "little" after it; little-endian otherwise. -/
theorem C53_order (bin bs be : Bytes) (ws : List Bytes) (h : Words bin ws) :
    (parseFieldTag bin bs be).order = .be ↔ ∃ a b, ws = a ++ word "big" :: b ∧ word "little" ∉ b := by
  rw [(parse_fields bin bs be ws h).2.2.2.2.2.1, foldl_order, word_big, word_little]
  simp

/-- C53: the last "sizeof=" word names the field; without one the name is empty. -/
theorem C53_sizeof (bin bs be : Bytes) (ws : List Bytes) (h : Words bin ws) :
    ((∀ w ∈ ws, ¬ IsSizeof w) → (parseFieldTag bin bs be).sizeOf = []) ∧
    ∀ a x b, ws = a ++ (word "sizeof=" ++ x) :: b → (∀ w ∈ b, ¬ IsSizeof w) → (parseFieldTag bin bs be).sizeOf = x := by
  rw [(parse_fields bin bs be ws h).2.2.2.2.2.2]
  refine ⟨fun hno => foldl_sizeof ws hno _, fun a x b hab hno => ?_⟩
  rw [hab, List.foldl_append, List.foldl_cons, foldl_sizeof b hno, tagWord_sizeof]

/-- The words with a meaning. -/
def known : List Bytes :=
  [word "big", word "little", word "optional", word "option", word "coption", word "binary_extension", word "-", word "skip",
   word "enum"]

/-- C53: a word without a meaning can be left out. -/
theorem C53_unknown (bs be : Bytes) (a b : List Bytes) (w : Bytes) (hw : w ∉ known) (hs : ¬ IsSizeof w) (s s' : Bytes)
    (h : Words s (a ++ w :: b)) (h' : Words s' (a ++ b)) : parseFieldTag s bs be = parseFieldTag s' bs be := by
  have : ∀ t, tagWord t w = t := by
    intro t
    simp only [known, word_big, word_little, word_optional, word_option, word_coption, word_extension, word_dash,
      word_skip, word_enum, List.mem_cons, List.not_mem_nil, or_false, not_or] at hw
    obtain ⟨h1, h2, h3, h4, h5, h6, h7, h8, h9⟩ := hw
    rw [tagWord, if_neg (by rw [isSizeof_iff]; exact hs)]
    simp [h1, h2, h3, h4, h5, h6, h7, h8, h9]
  unfold parseFieldTag
  rw [splitSpace_words h, splitSpace_words h', List.foldl_append, List.foldl_append, List.foldl_cons, this]

/-- C53: without tags nothing is set. -/
theorem C53_none : parseFieldTag [] [] [] = {} := by decide

/-- Every tag has words, here five of them, one unknown, with white space around `true`. -/
example : Words (word "big sizeof=Foo optional xyz little") [word "big", word "sizeof=Foo", word "optional", word "xyz",
    word "little"] := by
  unfold Words; decide +kernel
example : parseFieldTag (word "big sizeof=Foo optional xyz little") (word " true\n") [] =
    { sizeOf := word "Foo", option := true, skip := true } := by decide +kernel
example : SaysTrue (word " true\u00a0") := (trimSpace_true _).mp (by decide +kernel)
/-- Commas do not separate words. -/
example : parseFieldTag (word "big,optional") [] [] = {} := by decide +kernel

end Verif.Props
