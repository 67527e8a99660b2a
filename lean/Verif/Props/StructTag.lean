import Verif.Proofs.StructTag
import Verif.Props.Tags
/-! Property C84: raw struct tags. -/
namespace Verif.Props
open Spec

theorem tagGet_of_value {key tag v : Bytes} (h : TagValue key tag v) : tagGet tag key = v := by
  unfold tagGet
  cases h with
  | found ps p rest v hps hp hk hl =>
    have h1 := tagText_length ps (fun q hq => (hps q hq).1)
    rw [List.append_assoc, tagLookup_pairs key ps hps _ _ (by simp only [List.length_append]; omega)]
    obtain ⟨f, hf⟩ : ∃ f, (tagText ps ++ (p.text ++ rest)).length + 1 - ps.length = f + 1 :=
      ⟨(tagText ps ++ (p.text ++ rest)).length - ps.length, by simp only [List.length_append]; omega⟩
    rw [hf, tagLookup_pair key p hp, if_pos hk.symm, (unquote_iff _ _).2 hl]
    rfl
  | illegal ps p rest hps hp hk hl =>
    have h1 := tagText_length ps (fun q hq => (hps q hq).1)
    rw [List.append_assoc, tagLookup_pairs key ps hps _ _ (by simp only [List.length_append]; omega)]
    obtain ⟨f, hf⟩ : ∃ f, (tagText ps ++ (p.text ++ rest)).length + 1 - ps.length = f + 1 :=
      ⟨(tagText ps ++ (p.text ++ rest)).length - ps.length, by simp only [List.length_append]; omega⟩
    rw [hf, tagLookup_pair key p hp, if_pos hk.symm]
    cases hu : unquote p.literal with
    | none => rfl
    | some v => exact absurd ((unquote_iff _ _).1 hu) (hl v)
  | missing ps tail hps ht =>
    have h1 := tagText_length ps (fun q hq => (hps q hq).1)
    rw [tagLookup_pairs key ps hps _ _ (by simp only [List.length_append]; omega), tagLookup_noPair key _ ht]
    rfl

theorem tagValue_exists (key tag : Bytes) : ∃ v, TagValue key tag v := by
  obtain ⟨ps, tail, rfl, hok, hn⟩ := tag_split tag
  by_cases h : ∃ p ∈ ps, p.key = key
  · have : ∃ a p b, ps = a ++ p :: b ∧ p.key = key ∧ ∀ q ∈ a, q.key ≠ key := by
      clear hok
      induction ps with
      | nil => simp at h
      | cons x ps ih =>
        by_cases hx : x.key = key
        · exact ⟨[], x, ps, rfl, hx, by simp⟩
        · have h' : ∃ p ∈ ps, p.key = key := by
            obtain ⟨p, hp, hk⟩ := h
            rcases List.mem_cons.mp hp with rfl | hp
            · exact absurd hk hx
            · exact ⟨p, hp, hk⟩
          obtain ⟨a, p, b, rfl, hk, ha⟩ := ih h'
          exact ⟨x :: a, p, b, rfl, hk, by simpa [hx] using ha⟩
    obtain ⟨a, p, b, rfl, hk, ha⟩ := this
    have heq : tagText (a ++ p :: b) ++ tail = tagText a ++ p.text ++ (tagText b ++ tail) := by simp [tagText]
    rw [heq]
    have hps : ∀ q ∈ a, q.Ok ∧ q.key ≠ key := fun q hq => ⟨hok q (by simp [hq]), ha q hq⟩
    have hp : p.Ok := hok p (by simp)
    by_cases hl : ∃ v, GoLiteral p.literal v
    · obtain ⟨v, hv⟩ := hl
      exact ⟨v, .found a p _ v hps hp hk hv⟩
    · exact ⟨[], .illegal a p _ hps hp hk (fun v hv => hl ⟨v, hv⟩)⟩
  · exact ⟨[], .missing ps tail (fun q hq => ⟨hok q hq, fun hk => h ⟨q, hq, hk⟩⟩) hn⟩

/-- C84: on every byte string, the value of a key is the one the convention gives it. -/
theorem C84_get (tag key v : Bytes) : tagGet tag key = v ↔ TagValue key tag v := by
  refine ⟨fun h => ?_, tagGet_of_value⟩
  obtain ⟨w, hw⟩ := tagValue_exists key tag
  have := tagGet_of_value hw
  rw [h] at this
  exact this ▸ hw

/-- C84: the options of a field, from its raw tag. -/
theorem C84_options (raw b s e : Bytes) (ws : List Bytes) (hb : TagValue (word "bin") raw b)
    (hs : TagValue (word "borsh_skip") raw s) (he : TagValue (word "borsh_enum") raw e) (hw : Words b ws) :
    ((parseTag raw).skip = true ↔ word "-" ∈ ws ∨ word "skip" ∈ ws ∨ SaysTrue s) ∧
    ((parseTag raw).isEnum = true ↔ word "enum" ∈ ws ∨ SaysTrue e) ∧
    ((parseTag raw).option = true ↔ word "optional" ∈ ws ∨ word "option" ∈ ws) ∧
    ((parseTag raw).coption = true ↔ word "coption" ∈ ws) ∧
    ((parseTag raw).binExt = true ↔ word "binary_extension" ∈ ws) ∧
    ((parseTag raw).order = .be ↔ ∃ x y, ws = x ++ word "big" :: y ∧ word "little" ∉ y) ∧
    ((∀ w ∈ ws, ¬ IsSizeof w) → (parseTag raw).sizeOf = []) ∧
    ∀ x n y, ws = x ++ (word "sizeof=" ++ n) :: y → (∀ w ∈ y, ¬ IsSizeof w) → (parseTag raw).sizeOf = n := by
  have h1 : word "bin" = keyBin := by decide +kernel
  have h2 : word "borsh_skip" = keySkip := by decide +kernel
  have h3 : word "borsh_enum" = keyEnum := by decide +kernel
  rw [h1] at hb
  rw [h2] at hs
  rw [h3] at he
  unfold parseTag
  rw [tagGet_of_value hb, tagGet_of_value hs, tagGet_of_value he]
  obtain ⟨f1, f2, f3, f4, f5⟩ := C53_flags b s e ws hw
  obtain ⟨g1, g2⟩ := C53_sizeof b s e ws hw
  exact ⟨f1, f2, f3, f4, f5, C53_order b s e ws hw, g1, g2⟩

theorem noPair_nil : NoPair [] := by
  rintro ⟨p, hp, hpre⟩
  have := TagPair.text_length p hp
  rw [List.prefix_nil] at hpre
  rw [hpre] at this
  simp at this

/-- C84: pairs with other keys do not matter, nor do the number of spaces and what follows the last pair. -/
theorem C84_others (ps qs : List TagPair) (t u : Bytes) (hp : ∀ p ∈ ps, p.Ok) (hq : ∀ q ∈ qs, q.Ok) (ht : NoPair t)
    (hu : NoPair u)
    (h : ∀ k ∈ [word "bin", word "borsh_skip", word "borsh_enum"],
      (ps.filter (fun p => p.key = k)).map (·.literal) = (qs.filter (fun p => p.key = k)).map (·.literal)) :
    parseTag (tagText ps ++ t) = parseTag (tagText qs ++ u) := by
  have key : ∀ k, (ps.filter (fun p => p.key = k)).map (·.literal) = (qs.filter (fun p => p.key = k)).map (·.literal) →
      tagGet (tagText ps ++ t) k = tagGet (tagText qs ++ u) k := by
    intro k hk
    have one : ∀ (ps : List TagPair) (t : Bytes), (∀ p ∈ ps, p.Ok) → NoPair t → tagGet (tagText ps ++ t) k =
        match (ps.filter (fun p => p.key = k)).map (·.literal) with
        | [] => []
        | l :: _ => (unquote l).getD [] := by
      intro ps t hp ht
      cases hf : ps.filter (fun p => p.key = k) with
      | nil =>
        refine tagGet_of_value (.missing ps t (fun q hq => ⟨hp q hq, fun hk => ?_⟩) ht)
        have := List.filter_eq_nil_iff.mp hf q hq
        simp [hk] at this
      | cons p rest =>
        obtain ⟨a, b, rfl, ha, hpk, -⟩ := List.filter_eq_cons_iff.mp hf
        have heq : tagText (a ++ p :: b) ++ t = tagText a ++ p.text ++ (tagText b ++ t) := by simp [tagText]
        have hps : ∀ q ∈ a, q.Ok ∧ q.key ≠ k :=
          fun q hq => ⟨hp q (by simp [hq]), by simpa using ha q hq⟩
        have hpk : p.key = k := by simpa using hpk
        rw [heq]
        simp only [List.map_cons]
        cases hu : unquote p.literal with
        | some v => exact tagGet_of_value (.found a p _ v hps (hp p (by simp)) hpk ((unquote_iff _ _).1 hu))
        | none =>
          refine tagGet_of_value (.illegal a p _ hps (hp p (by simp)) hpk (fun v hv => ?_))
          rw [(unquote_iff _ _).2 hv] at hu
          cases hu
    rw [one ps t hp ht, one qs u hq hu, hk]
  have h1 : word "bin" = keyBin := by decide +kernel
  have h2 : word "borsh_skip" = keySkip := by decide +kernel
  have h3 : word "borsh_enum" = keyEnum := by decide +kernel
  unfold parseTag
  rw [key keyBin (h1 ▸ h _ (by simp)), key keySkip (h2 ▸ h _ (by simp)), key keyEnum (h3 ▸ h _ (by simp))]

/-- C84: text without quotes, backslashes and line feeds stands for itself. -/
theorem C84_plain (rs : List Nat) (h : ∀ r ∈ rs, Scalar r ∧ r ≠ 34 ∧ r ≠ 92 ∧ r ≠ 10) :
    GoLiteral (rs.flatMap utf8) (rs.flatMap utf8) := by
  induction rs with
  | nil => exact .nil
  | cons r rs ih =>
    obtain ⟨h1, h2, h3, h4⟩ := h r (by simp)
    simp only [List.flatMap_cons]
    exact .char r h1 h2 h3 h4 (ih fun x hx => h x (by simp [hx]))

/-- A tag with two pairs; the second is ours. -/
example : parseTag (word "json:\"a,omitempty\"  bin:\"sizeof=Foo big\"") = { sizeOf := word "Foo", order := .be } := by
  decide +kernel
example : ∃ ps : List TagPair, word "json:\"a,omitempty\"  bin:\"sizeof=Foo big\"" = tagText ps ∧ ∀ p ∈ ps, p.Ok :=
  ⟨[⟨0, word "json", word "a,omitempty"⟩, ⟨2, word "bin", word "sizeof=Foo big"⟩], by decide +kernel, by
    have key : ∀ k : Bytes, (k ≠ [] ∧ ∀ b ∈ k, tagKeyByte b = true) → TagKey k :=
      fun k h => ⟨h.1, fun b hb => (tagKeyByte_iff b).1 (h.2 b hb)⟩
    have closed : ∀ l : Bytes, scanQuoted (l ++ [34]) = some (l, []) → Closed l :=
      fun l h => (scanQuoted_sound _ _ (Nat.le_refl _) l [] h).1
    intro p hp
    simp only [List.mem_cons, List.not_mem_nil, or_false] at hp
    rcases hp with rfl | rfl
    · exact ⟨key _ (by decide +kernel), closed _ (by decide +kernel)⟩
    · exact ⟨key _ (by decide +kernel), closed _ (by decide +kernel)⟩⟩
/-- The first of two pairs counts. -/
example : parseTag (word "bin:\"big\" bin:\"optional\"") = { order := .be } := by decide +kernel
/-- An escape in the literal: a space. -/
example : parseTag (word "bin:\"big\\x20optional\"") = { order := .be, option := true } := by decide +kernel
/-- Text that is not a pair hides the pairs behind it. -/
example : parseTag (word "json:foo bin:\"optional\"") = {} := by decide +kernel
/-- A space behind the colon, or a literal that is not one: no options. -/
example : parseTag (word "bin: \"optional\"") = {} := by decide +kernel
example : parseTag (word "bin:\"optional \\q\"") = {} := by decide +kernel
/-- All three keys. -/
example : parseTag (word "bin:\"option\" borsh_skip:\" true \" borsh_enum:\"true\"") =
    { option := true, skip := true, isEnum := true } := by decide +kernel

end Verif.Props
