import Verif.Spec.JsonString
import Verif.Proofs.Utf8
import Verif.Props.JsonInput
/-! `jsonString` reads exactly the JSON strings. -/
set_option linter.unusedSimpArgs false
namespace Verif.Props
open Spec

theorem utf8Encode_eq (r : Nat) : utf8Encode r = utf8 r := rfl

theorem hex4_iff (a b c d : UInt8) (r : Nat) : hex4 a b c d = some r ↔ Unit4 [a, b, c, d] r := by
  unfold hex4 Unit4
  constructor
  · intro h
    split at h
    · rename_i w x y z hw hx hy hz
      simp only [Option.some.injEq] at h
      exact ⟨a, b, c, d, w, x, y, z, rfl, (hexValue_iff _ _).1 hw, (hexValue_iff _ _).1 hx, (hexValue_iff _ _).1 hy,
        (hexValue_iff _ _).1 hz, by omega⟩
    · cases h
  · rintro ⟨a', b', c', d', w, x, y, z, h, hw, hx, hy, hz, rfl⟩
    simp only [List.cons.injEq, and_true] at h
    obtain ⟨rfl, rfl, rfl, rfl⟩ := h
    rw [(hexValue_iff _ _).2 hw, (hexValue_iff _ _).2 hx, (hexValue_iff _ _).2 hy, (hexValue_iff _ _).2 hz]
    simp only [Option.some.injEq]
    omega

theorem Unit4.form {u : Bytes} {r : Nat} (h : Unit4 u r) : ∃ a b c d, u = [a, b, c, d] ∧ hex4 a b c d = some r := by
  obtain ⟨a, b, c, d, w, x, y, z, rfl, h⟩ := h
  exact ⟨a, b, c, d, rfl, (hex4_iff _ _ _ _ _).2 ⟨a, b, c, d, w, x, y, z, rfl, h⟩⟩

theorem hex4_lt {a b c d : UInt8} {r : Nat} (h : hex4 a b c d = some r) : r < 0x10000 := by
  have hlt : ∀ {b x}, HexDig b x → x < 16 := by
    intro b x h
    unfold HexDig at h
    rcases h with h | h <;> (have := (List.getElem?_eq_some_iff.1 h).1; simpa using this)
  obtain ⟨_, _, _, _, w, x, y, z, -, h1, h2, h3, h4, rfl⟩ := (hex4_iff _ _ _ _ _).1 h
  have := hlt h1; have := hlt h2; have := hlt h3; have := hlt h4
  omega

theorem jsonEscape_iff (c x : UInt8) : jsonEscape c = some x ↔ (c, x) ∈ shortEscapes := by
  unfold jsonEscape shortEscapes
  simp only [List.mem_cons, Prod.mk.injEq, List.not_mem_nil, or_false]
  split
  · rename_i h
    rcases h with rfl | rfl | rfl <;> simp [eq_comm]
  · rename_i h
    simp only [not_or] at h
    repeat' split
    all_goals simp_all [eq_comm]

theorem jsonRune_cases (r : Nat) (hr : r < 0x10000) (rest : Bytes) :
    (Scalar r ∧ jsonRune r rest = (utf8 r, 0)) ∨
    (¬ Scalar r ∧ (HighSurrogate r → ∀ v l, Unit4 v l → LowSurrogate l → ¬ 92 :: 117 :: v <+: rest) ∧
      jsonRune r rest = (utf8 0xFFFD, 0)) ∨
    (HighSurrogate r ∧ ∃ v l s, Unit4 v l ∧ LowSurrogate l ∧ rest = 92 :: 117 :: v ++ s ∧
      jsonRune r rest = (utf8 (0x10000 + (r - 0xD800) * 0x400 + (l - 0xDC00)), 6)) := by
  by_cases hs : 0xD800 ≤ r ∧ r < 0xE000
  · right
    have hns : ¬ Scalar r := fun h => h.2 hs
    unfold jsonRune
    rw [if_pos hs]
    by_cases hp : HighSurrogate r ∧ ∃ v l, Unit4 v l ∧ LowSurrogate l ∧ 92 :: 117 :: v <+: rest
    · right
      obtain ⟨hh, v, l, hv, hl, s, rfl⟩ := hp
      refine ⟨hh, v, l, s, hv, hl, rfl, ?_⟩
      obtain ⟨a, b, c, d, rfl, h4⟩ := Unit4.form hv
      simp only [List.cons_append, List.nil_append, h4]
      rw [if_pos ⟨hh.2, hl⟩]
      rfl
    · left
      refine ⟨hns, fun hh v l hv hl hpre => hp ⟨hh, v, l, hv, hl, hpre⟩, ?_⟩
      split
      · rename_i a b c d tl
        split
        · rename_i r2 h2
          split
          · rename_i hc
            exact absurd ⟨⟨hs.1, hc.1⟩, [a, b, c, d], r2, (hex4_iff _ _ _ _ _).1 h2, hc.2, tl, by simp⟩ hp
          · rw [replacement_eq]
        · rw [replacement_eq]
      · rw [replacement_eq]
  · left
    refine ⟨⟨by omega, hs⟩, ?_⟩
    unfold jsonRune
    rw [if_neg hs]; rfl

theorem jsonUnquote_nil (fuel : Nat) : jsonUnquote fuel [] = .err .parse := by cases fuel <;> rfl

/-- Prepend to a successful result. -/
def prepend (p : Bytes) : Res Bytes → Res Bytes
  | .ok t => .ok (p ++ t)
  | .err e => .err e
  | .panic => .panic

theorem jsonUnquote_succ (fuel : Nat) (b : UInt8) (rest : Bytes) : jsonUnquote (fuel + 1) (b :: rest) =
    if b = 34 then (if rest = [] then .ok [] else .err .parse)
    else if b = 92 then
      match rest with
      | 117 :: a :: b :: c :: d :: rest =>
        match hex4 a b c d with
        | some r => prepend (jsonRune r rest).1 (jsonUnquote fuel (rest.drop (jsonRune r rest).2))
        | none => .err .parse
      | e :: rest =>
        match jsonEscape e with
        | some x => prepend [x] (jsonUnquote fuel rest)
        | none => .err .parse
      | [] => .err .parse
    else if b < 32 then .err .parse
    else if b < 128 then prepend [b] (jsonUnquote fuel rest)
    else
      match runeWidth (b :: rest) with
      | some w => prepend ((b :: rest).take w) (jsonUnquote fuel ((b :: rest).drop w))
      | none => prepend replacement (jsonUnquote fuel rest) := rfl

theorem prepend_ok {p t : Bytes} {r : Res Bytes} : prepend p r = .ok t ↔ ∃ t', r = .ok t' ∧ t = p ++ t' := by
  cases r <;> simp [prepend, eq_comm]

theorem utf8_small {r : Nat} (h : r < 0x80) : utf8 r = [UInt8.ofNat r] := by unfold utf8; rw [if_pos h]

theorem utf8_big {r : Nat} (h : 0x80 ≤ r) (hr : r < 0x110000) : ∃ b t, utf8 r = b :: t ∧ 128 ≤ b.toNat := by
  unfold utf8
  rw [if_neg (by omega)]
  repeat' split
  all_goals exact ⟨_, _, rfl, by rw [u8nat _ (by omega)]; omega⟩

theorem jsonUnquote_sound : ∀ (fuel : Nat) (s t : Bytes), jsonUnquote fuel s = .ok t → Quoted s t := by
  intro fuel
  induction fuel with
  | zero => intro s t h; cases h
  | succ fuel ih =>
    intro s t h
    cases s with
    | nil => cases h
    | cons b rest =>
      rw [jsonUnquote_succ] at h
      split at h
      · rename_i hb
        split at h
        · rename_i hr
          cases h
          rw [hb, hr]
          exact .close
        · cases h
      · rename_i h34
        split at h
        · rename_i hb
          subst hb
          split at h
          · rename_i a b c d rest
            split at h
            · rename_i r hr
              rw [prepend_ok] at h
              obtain ⟨t', h, rfl⟩ := h
              have hu := (hex4_iff _ _ _ _ _).1 hr
              rcases jsonRune_cases r (hex4_lt hr) rest with ⟨h1, h2⟩ | ⟨h1, h2, h3⟩ | ⟨h1, v, l, s, h2, h3, rfl, h4⟩
              · rw [h2] at h ⊢
                exact .unit r hu h1 (ih _ _ h)
              · rw [h3] at h ⊢
                exact .lone r hu h1 h2 (ih _ _ h)
              · rw [h4] at h ⊢
                obtain ⟨a', b', c', d', rfl, -⟩ := Unit4.form h2
                have := Quoted.pair r l hu h1 h2 h3 (ih _ _ h)
                simpa using this
            · cases h
          · rename_i e rest _
            split at h
            · rename_i x hx
              rw [prepend_ok] at h
              obtain ⟨t', h, rfl⟩ := h
              exact .short e x ((jsonEscape_iff _ _).1 hx) (ih _ _ h)
            · cases h
          · cases h
        · rename_i h92
          split at h
          · cases h
          · rename_i h32
            have h32' : 32 ≤ b.toNat := by simpa [UInt8.lt_iff_toNat_lt] using h32
            have hne : ∀ n : Nat, n < 256 → b ≠ UInt8.ofNat n → b.toNat ≠ n := by
              intro n hn hb he
              exact hb (by rw [← he]; simp)
            split at h
            · rename_i h128
              have h128' : b.toNat < 128 := by simpa [UInt8.lt_iff_toNat_lt] using h128
              rw [prepend_ok] at h
              obtain ⟨t', h, rfl⟩ := h
              have := Quoted.char b.toNat ⟨by omega, by omega⟩ h32' (hne 34 (by omega) h34) (hne 92 (by omega) h92) (ih _ _ h)
              rw [utf8_small h128'] at this
              simpa using this
            · rename_i h128
              have h128' : 128 ≤ b.toNat := by simpa [UInt8.lt_iff_toNat_lt] using h128
              split at h
              · rename_i w hw
                rw [prepend_ok] at h
                obtain ⟨t', h, rfl⟩ := h
                obtain ⟨r, hr, htake, hlen⟩ := runeWidth_sound hw
                have hb : 128 ≤ r := by
                  rcases Nat.lt_or_ge r 128 with hlt | hge
                  · rw [utf8_small hlt] at htake hlen
                    rw [hlen] at htake
                    simp only [List.length_singleton, List.take_succ_cons, List.take_zero, List.cons.injEq, and_true] at htake
                    rw [htake, u8nat _ (by omega)] at h128'
                    omega
                  · exact hge
                have := Quoted.char r hr (by omega) (by omega) (by omega) (ih _ _ h)
                rw [← htake, List.take_append_drop] at this
                exact this
              · rename_i hw
                rw [prepend_ok] at h
                obtain ⟨t', h, rfl⟩ := h
                rw [replacement_eq]
                exact .broken b (fun r hr => runeWidth_none hw r hr) (ih _ _ h)

theorem jsonUnquote_complete {s t : Bytes} (h : Quoted s t) : ∀ fuel, s.length ≤ fuel → jsonUnquote fuel s = .ok t := by
  induction h with
  | close =>
    intro fuel hf
    cases fuel with
    | zero => simp at hf
    | succ f => rfl
  | char r hr h32 h34 h92 _ ih =>
    rename_i s t _
    intro fuel hf
    cases fuel with
    | zero => simp at hf; exact absurd hf.1 (utf8_ne_nil r)
    | succ f =>
      rcases Nat.lt_or_ge r 128 with hlt | hge
      · rw [utf8_small hlt] at hf ⊢
        rw [List.singleton_append, jsonUnquote_succ]
        have hn := u8nat r (by omega)
        have hne : ∀ n : UInt8, r ≠ n.toNat → UInt8.ofNat r ≠ n := by
          intro n h1 h2
          rw [← h2, hn] at h1
          exact h1 rfl
        rw [if_neg (hne 34 h34), if_neg (hne 92 h92), if_neg (by rw [UInt8.lt_iff_toNat_lt, hn]; simp; omega),
          if_pos (by rw [UInt8.lt_iff_toNat_lt, hn]; exact hlt), ih f (by simpa using hf)]
        rfl
      · obtain ⟨b, u, hu, hb⟩ := utf8_big hge hr.1
        have hw := runeWidth_complete hr s
        have hne : ∀ n : UInt8, n.toNat < 128 → b ≠ n := by
          rintro n h1 rfl
          omega
        rw [hu] at hf hw ⊢
        rw [List.cons_append, jsonUnquote_succ, if_neg (hne 34 (by decide)), if_neg (hne 92 (by decide)),
          if_neg (by rw [UInt8.lt_iff_toNat_lt]; simp; omega), if_neg (by rw [UInt8.lt_iff_toNat_lt]; simp; omega)]
        rw [List.cons_append] at hw
        rw [hw]
        simp only []
        have : (b :: (u ++ s)).drop (b :: u).length = s := by rw [← List.cons_append]; simp
        rw [this, ih f (by simp at hf; omega)]
        rw [← List.cons_append, List.take_left']
        · rfl
        · rfl
  | broken b hb _ ih =>
    rename_i s t _
    intro fuel hf
    cases fuel with
    | zero => simp at hf
    | succ f =>
      have h128 : 128 ≤ b.toNat := by
        rcases Nat.lt_or_ge b.toNat 128 with hlt | hge
        · exact absurd ⟨s, by rw [utf8_small hlt]; simp⟩ (hb b.toNat ⟨by omega, by omega⟩)
        · exact hge
      have hne : ∀ n : UInt8, n.toNat < 128 → b ≠ n := by
        rintro n h1 rfl
        omega
      rw [jsonUnquote_succ, if_neg (hne 34 (by decide)), if_neg (hne 92 (by decide)),
          if_neg (by rw [UInt8.lt_iff_toNat_lt]; simp; omega), if_neg (by rw [UInt8.lt_iff_toNat_lt]; simp; omega)]
      cases hw : runeWidth (b :: s) with
      | some w =>
        obtain ⟨r, hr, htake, -⟩ := runeWidth_sound hw
        exact absurd (htake ▸ List.take_prefix w (b :: s)) (hb r hr)
      | none =>
        simp only []
        rw [ih f (by simpa using hf), replacement_eq]
        rfl
  | short c x hc _ ih =>
    rename_i s t _
    intro fuel hf
    cases fuel with
    | zero => simp at hf
    | succ f =>
      rw [jsonUnquote_succ, if_neg (by decide), if_pos rfl]
      split
      · rename_i heq
        cases heq
        simp [shortEscapes] at hc
      · rename_i heq
        cases heq
        rw [(jsonEscape_iff _ _).2 hc]
        simp only []
        rw [ih f (by simp at hf; omega)]
        rfl
      · rename_i heq; cases heq
  | unit r hu hr _ ih =>
    rename_i s t u _
    intro fuel hf
    obtain ⟨a, b, c, d, rfl, h4⟩ := Unit4.form hu
    cases fuel with
    | zero => simp at hf
    | succ f =>
      rw [List.cons_append, jsonUnquote_succ, if_neg (by decide), if_pos rfl]
      simp only [List.cons_append, List.nil_append, h4]
      rcases jsonRune_cases r (hex4_lt h4) s with ⟨h1, h2⟩ | ⟨h1, h2, h3⟩ | ⟨h1, v, l, s, h2, h3, rfl, h4⟩
      · rw [h2]
        simp only [List.drop_zero]
        rw [ih f (by simp at hf; omega)]
        rfl
      · exact absurd hr h1
      · exact absurd ⟨h1.1, by have := h1.2; omega⟩ hr.2
  | pair h l hu hh hv hl _ ih =>
    rename_i s t u v _
    intro fuel hf
    obtain ⟨a, b, c, d, rfl, h4⟩ := Unit4.form hu
    obtain ⟨a', b', c', d', rfl, h4'⟩ := Unit4.form hv
    cases fuel with
    | zero => simp at hf
    | succ f =>
      simp only [List.cons_append, List.nil_append]
      rw [jsonUnquote_succ, if_neg (by decide), if_pos rfl]
      simp only [h4]
      rcases jsonRune_cases h (hex4_lt h4) (92 :: 117 :: a' :: b' :: c' :: d' :: s) with
        ⟨h1, h2⟩ | ⟨h1, h2, h3⟩ | ⟨h1, v, l', s', h2, h3, hs, h5⟩
      · exact absurd ⟨hh.1, by have := hh.2; omega⟩ h1.2
      · exact absurd ⟨s, rfl⟩ (h2 hh _ _ hv hl)
      · rw [h5]
        obtain ⟨a2, b2, c2, d2, rfl, h6⟩ := Unit4.form h2
        simp only [List.cons_append, List.nil_append, List.cons.injEq, true_and] at hs
        obtain ⟨rfl, rfl, rfl, rfl, rfl⟩ := hs
        rw [h4'] at h6
        cases h6
        simp only [List.drop_succ_cons, List.drop_zero]
        rw [ih f (by simp at hf; omega)]
        rfl
  | lone r hu hr hp _ ih =>
    rename_i s t u _
    intro fuel hf
    obtain ⟨a, b, c, d, rfl, h4⟩ := Unit4.form hu
    cases fuel with
    | zero => simp at hf
    | succ f =>
      rw [List.cons_append, jsonUnquote_succ, if_neg (by decide), if_pos rfl]
      simp only [List.cons_append, List.nil_append, h4]
      rcases jsonRune_cases r (hex4_lt h4) s with ⟨h1, h2⟩ | ⟨h1, h2, h3⟩ | ⟨h1, v, l, s, h2, h3, rfl, h4⟩
      · exact absurd h1 hr
      · rw [h3]
        simp only [List.drop_zero]
        rw [ih f (by simp at hf; omega)]
        rfl
      · exact absurd ⟨s, rfl⟩ (hp h1 _ _ h2 h3)

theorem Quoted.last {s t : Bytes} (h : Quoted s t) : s.getLast? = some 34 := by
  induction h with
  | close => rfl
  | char r _ _ _ _ _ ih => rw [List.getLast?_append, ih]; rfl
  | broken b _ _ ih => rw [List.getLast?_cons, ih]; rfl
  | short c x _ _ ih => rw [List.getLast?_cons, List.getLast?_cons, ih]; rfl
  | unit r _ _ _ ih => rw [List.getLast?_append, ih]; rfl
  | pair h l _ _ _ _ _ ih => rw [List.getLast?_append, ih]; rfl
  | lone r _ _ _ _ ih => rw [List.getLast?_append, ih]; rfl

theorem jsonString_iff (data s : Bytes) : jsonString data = .ok s ↔ JsonString data s := by
  unfold jsonString JsonString
  simp only []
  have hp := trimJson_padded data
  constructor
  · intro h
    split at h
    · rename_i hn
      cases h
      rw [hn] at hp
      exact .inl ⟨hp, rfl⟩
    · split at h
      · rename_i rest hr
        rw [hr] at hp
        exact .inr ⟨rest, hp, jsonUnquote_sound _ _ _ h⟩
      · cases h
  · rintro (⟨h, rfl⟩ | ⟨body, h, hq⟩)
    · have : trimJson data = nullText := trimJson_of_padded h (by decide) (by decide) (by decide)
      rw [this, if_pos (by rfl)]
    · have : trimJson data = 34 :: body := by
        refine trimJson_of_padded h ?_ ?_ (by simp)
        · intro b hb; cases hb; rfl
        · intro b hb
          rw [List.getLast?_cons, Quoted.last hq] at hb
          cases hb; rfl
      rw [this, if_neg (by intro h; cases h)]
      exact jsonUnquote_complete hq _ (Nat.le_refl _)

end Verif.Props
