import Verif.Model.Heck
import Verif.Spec.Cases
/-! heck.go on ASCII strings meets the direct description of `Spec.Cases`. -/
set_option linter.unusedSimpArgs false
namespace Verif
open Verif.Spec

/-- The tables agree with ASCII on ASCII. -/
structure Uni.Ascii (U : Uni) : Prop where
  letter : ∀ b : UInt8, b < 128 → U.isLetter b.toNat = (upperB b || lowerB b)
  digit : ∀ b : UInt8, b < 128 → U.isDigit b.toNat = digitB b
  upper : ∀ b : UInt8, b < 128 → U.isUpper b.toNat = upperB b
  lower : ∀ b : UInt8, b < 128 → U.isLower b.toNat = lowerB b
  toLow : ∀ b : UInt8, b < 128 → U.toLower b.toNat = (toLowB b).toNat
  toUp : ∀ b : UInt8, b < 128 → U.toUpper b.toNat = (toUpB b).toNat

/-- every byte below 0x80 -/
abbrev AsciiS (s : Bytes) : Prop := ∀ b ∈ s, b < 128

theorem byte_all (P : UInt8 → Bool) (h : (List.range 256).all (fun n => P (UInt8.ofNat n)) = true) (b : UInt8) :
    P b = true := by
  rw [List.all_eq_true] at h
  have := h b.toNat (List.mem_range.mpr b.toNat_lt)
  simpa using this

theorem alnum_ascii {b : UInt8} (h : alnumB b = true) : b < 128 := by
  have := byte_all (fun b => !alnumB b || decide (b < 128)) (by decide +kernel) b
  simp [h] at this; exact this

theorem alnum_ne95 {b : UInt8} (h : alnumB b = true) : b.toNat ≠ 95 := by
  have := byte_all (fun b => !alnumB b || decide (b.toNat ≠ 95)) (by decide +kernel) b
  simp [h] at this; exact this

theorem upper_not_lower {b : UInt8} (h : upperB b = true) : lowerB b = false := by
  have := byte_all (fun b => !upperB b || !lowerB b) (by decide +kernel) b
  simpa [h] using this

theorem low_lt {b : UInt8} (h : b < 128) : toLowB b < 128 := by
  have := byte_all (fun b => !decide (b < 128) || decide (toLowB b < 128)) (by decide +kernel) b
  rw [decide_eq_true h] at this
  exact of_decide_eq_true this

theorem up_lt {b : UInt8} (h : b < 128) : toUpB b < 128 := by
  have := byte_all (fun b => !decide (b < 128) || decide (toUpB b < 128)) (by decide +kernel) b
  rw [decide_eq_true h] at this
  exact of_decide_eq_true this

theorem runeWidth_ascii {b : UInt8} (hb : b < 128) (rest : Bytes) : runeWidth (b :: rest) = some 1 := by
  unfold runeWidth
  simp only []
  rw [if_pos hb]

theorem runesAux_cons {b : UInt8} (hb : b < 128) (rest : Bytes) (f : Nat) :
    runesAux (f + 1) (b :: rest) = (b.toNat, [b]) :: runesAux f rest := by
  rw [runesAux, runeWidth_ascii hb]
  rfl

theorem runesAux_ascii (s : Bytes) : ∀ (f : Nat), s.length ≤ f → AsciiS s →
    runesAux f s = s.map fun b => (b.toNat, [b]) := by
  induction s with
  | nil => intro f _ _; cases f <;> rfl
  | cons b rest ih =>
    intro f h ha
    cases f with
    | zero => simp at h
    | succ f =>
      rw [runesAux_cons (ha b (by simp)), ih f (by simpa using h) fun x hx => ha x (by simp [hx])]
      rfl

theorem runesOf_ascii {s : Bytes} (h : AsciiS s) : runesOf s = s.map fun b => (b.toNat, [b]) :=
  runesAux_ascii s _ (Nat.le_refl _) h

theorem runes_ascii {s : Bytes} (h : AsciiS s) : (runesOf s).map (·.1) = s.map UInt8.toNat := by
  rw [runesOf_ascii h, List.map_map]; rfl

theorem utf8Encode_ascii {b : UInt8} (h : b < 128) : utf8Encode b.toNat = [b] := by
  have : b.toNat < 128 := by simpa [UInt8.lt_iff_toNat_lt] using h
  unfold utf8Encode
  rw [if_pos this]; simp

theorem mapRunes_low {U : Uni} (hU : U.Ascii) {s : Bytes} (h : AsciiS s) : mapRunes U.toLower s = s.map toLowB := by
  unfold mapRunes
  rw [runesOf_ascii h]
  induction s with
  | nil => rfl
  | cons b s ih =>
    have hb : b < 128 := h b (by simp)
    simp only [List.map_cons, List.flatMap_cons]
    rw [ih fun x hx => h x (by simp [hx]), hU.toLow b hb, utf8Encode_ascii (low_lt hb)]
    rfl

theorem heckLowercase_ascii {U : Uni} (hU : U.Ascii) {s : Bytes} (h : AsciiS s) :
    heckLowercase U (s.map UInt8.toNat) = s.map toLowB := by
  induction s with
  | nil => rfl
  | cons b s ih =>
    have hb : b < 128 := h b (by simp)
    have hn : b.toNat < 128 := by simpa [UInt8.lt_iff_toNat_lt] using hb
    simp only [List.map_cons, heckLowercase]
    rw [ih fun x hx => h x (by simp [hx]), if_neg (by omega), hU.toLow b hb, utf8Encode_ascii (low_lt hb)]
    rfl

/-- `hd` on the first, lower case on the others -/
def styled (hd : UInt8 → UInt8) : Bytes → Bytes
  | [] => []
  | c :: cs => hd c :: cs.map toLowB

theorem heckCapitalize_ascii {U : Uni} (hU : U.Ascii) {s : Bytes} (h : AsciiS s) :
    heckCapitalize U s = .ok (styled toUpB s) := by
  unfold heckCapitalize
  rw [runesOf_ascii h]
  match s, h with
  | [], _ => rfl
  | [b], h =>
    have hb : b < 128 := h b (by simp)
    simp only [List.map_cons, List.map_nil, styled]
    rw [hU.toUp b hb, utf8Encode_ascii (up_lt hb)]
  | b :: c :: s, h =>
    have hb : b < 128 := h b (by simp)
    have hr : AsciiS (c :: s) := fun x hx => h x (by simp only [List.mem_cons] at hx ⊢; exact .inr hx)
    have hs : goSlice (b :: c :: s) 1 (b :: c :: s).length = .ok (c :: s) := by
      unfold goSlice
      rw [if_pos (by simp)]
      simp
    simp only [List.map_cons, hs, styled]
    rw [runes_ascii hr, heckLowercase_ascii hU hr, hU.toUp b hb, utf8Encode_ascii (up_lt hb)]
    rfl

/-- What the two styles have in common. -/
structure WordStyle (ww : Bytes → Res Bytes) (hd : UInt8 → UInt8) : Prop where
  ok : ∀ s, AsciiS s → ww s = .ok (styled hd s)

theorem snakeStyle {U : Uni} (hU : U.Ascii) : WordStyle (fun w => .ok (mapRunes U.toLower w)) toLowB where
  ok s h := by
    rw [mapRunes_low hU h]
    cases s <;> rfl

theorem pascalStyle {U : Uni} (hU : U.Ascii) : WordStyle (heckCapitalize U) toUpB where
  ok _ h := heckCapitalize_ascii hU h

/-- the words of a run, `pre` reversed within the run, `any`: something was written before the run -/
def styleRun (sep : Bytes) (hd : UInt8 → UInt8) (any : Bool) : Bytes → Bytes → Bytes
  | _, [] => []
  | pre, c :: post =>
    (if pre.isEmpty || hump pre c post then (if any || !pre.isEmpty then sep else []) ++ [hd c] else [toLowB c]) ++
      styleRun sep hd any (c :: pre) post

theorem takeWhile_all {α : Type} (p : α → Bool) : ∀ (a b : List α), (∀ x ∈ a, p x = true) →
    (b = [] ∨ ∃ x t, b = x :: t ∧ p x = false) → (a ++ b).takeWhile p = a
  | [], b, _, hb => by
    rcases hb with rfl | ⟨x, t, rfl, hx⟩
    · rfl
    · simp [List.takeWhile, hx]
  | x :: a, b, ha, hb => by
    rw [List.cons_append, List.takeWhile_cons, if_pos (ha x (by simp)), takeWhile_all p a b (fun y hy => ha y (by simp [hy])) hb]

/-- nothing, or a separator -/
def SepHead (b : Bytes) : Prop := b = [] ∨ ∃ x t, b = x :: t ∧ alnumB x = false

theorem lastLetter_append {a b : Bytes} (ha : ∀ x ∈ a, alnumB x = true) (hb : SepHead b) :
    lastLetter (a ++ b) = lastLetter a := by
  unfold lastLetter
  rw [takeWhile_all _ a b ha hb]
  have := takeWhile_all alnumB a [] ha (.inl rfl)
  rw [List.append_nil] at this
  rw [this]

theorem hump_append {a b p q : Bytes} {c : UInt8} (ha : ∀ x ∈ a, alnumB x = true) (hb : SepHead b) (hq : SepHead q) :
    hump (a ++ b) c (p ++ q) = hump a c p := by
  unfold hump
  rw [lastLetter_append ha hb]
  cases lastLetter a with
  | none => rfl
  | some l =>
    cases p with
    | cons n p => rfl
    | nil =>
      rcases hq with rfl | ⟨x, t, rfl, hx⟩
      · rfl
      · simp only [List.nil_append]
        have : lowerB x = false := by
          simp only [alnumB, Bool.or_eq_false_iff] at hx; exact hx.1.2
        rw [this]

/-- A run inside a string is styled as on its own. -/
theorem styleAt_run (sep : Bytes) (hd : UInt8 → UInt8) (q : Bytes) (hq : SepHead q) (b : Bytes) (hb : SepHead b) :
    ∀ (w a : Bytes), (∀ x ∈ a, alnumB x = true) → (∀ x ∈ w, alnumB x = true) →
    styleAt sep hd (a ++ b) (w ++ q) =
      styleRun sep hd (b.any alnumB) a w ++ styleAt sep hd (w.reverse ++ a ++ b) q
  | [], a, _, _ => by simp [styleRun]
  | c :: w, a, ha, hw => by
    have hc : alnumB c = true := hw c (by simp)
    have hst : startsWord (a ++ b) c (w ++ q) = (a.isEmpty || hump a c w) := by
      cases a with
      | nil =>
        rcases hb with rfl | ⟨x, t, rfl, hx⟩
        · rfl
        · simp [startsWord, hx]
      | cons y a =>
        have hy : alnumB y = true := ha y (by simp)
        have := hump_append (c := c) (p := w) ha hb hq
        simp only [List.cons_append] at this ⊢
        simp only [startsWord, hy, this, List.isEmpty_cons, Bool.not_true, Bool.false_or]
    have hany : (a ++ b).any alnumB = (b.any alnumB || !a.isEmpty) := by
      rw [List.any_append]
      cases a with
      | nil => simp
      | cons y a => simp [ha y (by simp)]
    have ih := styleAt_run sep hd q hq b hb w (c :: a) (by
      intro x hx
      rcases List.mem_cons.mp hx with rfl | hx
      · exact hc
      · exact ha x hx) (fun x hx => hw x (by simp [hx]))
    simp only [List.cons_append] at ih ⊢
    simp only [styleAt, hc, if_true, hst, hany, ih, styleRun, List.append_assoc, List.reverse_cons, List.singleton_append,
      List.cons_append, List.nil_append]

/-- Case of the last letter as the code's mode. -/
def modeOf (a : Bytes) : WordMode :=
  match a.find? (fun b => upperB b || lowerB b) with
  | none => .boundary
  | some l => if lowerB l then .lowercase else .uppercase

theorem goSlice_mid (p m q : Bytes) (hi : Nat) (h : hi = p.length + m.length) :
    goSlice (p ++ m ++ q) p.length hi = .ok m := by
  unfold goSlice
  subst h
  rw [if_pos (by simp)]
  congr 1
  rw [List.append_assoc, List.drop_left, show p.length + m.length - p.length = m.length by omega, List.take_left]

theorem modeOf_cons (c : UInt8) (a : Bytes) :
    modeOf (c :: a) = if lowerB c then .lowercase else if upperB c then .uppercase else modeOf a := by
  unfold modeOf
  rw [List.find?_cons]
  by_cases h1 : lowerB c = true
  · simp [h1]
  · by_cases h2 : upperB c = true
    · simp [h1, h2]
    · simp [h1, h2]

theorem hump_mode {a : Bytes} (ha : ∀ x ∈ a, alnumB x = true) (c : UInt8) (post : Bytes) :
    hump a c post = match modeOf a with
      | .boundary => false
      | .lowercase => upperB c
      | .uppercase => upperB c && (match post with | [] => false | n :: _ => lowerB n) := by
  have ht : a.takeWhile alnumB = a := by
    have := takeWhile_all alnumB a [] ha (.inl rfl)
    rwa [List.append_nil] at this
  unfold hump modeOf lastLetter
  rw [ht]
  cases a.find? (fun b => upperB b || lowerB b) with
  | none => rfl
  | some l =>
    by_cases h : lowerB l = true
    · simp [h]
    · simp only [h, Bool.false_or]
      rfl

theorem styled_append (hd : UInt8 → UInt8) (p : Bytes) (hp : p ≠ []) (c : UInt8) :
    styled hd (p ++ [c]) = styled hd p ++ [toLowB c] := by
  cases p with
  | nil => exact absurd rfl hp
  | cons x p => simp [styled]

theorem heckWord_two (U : Uni) (ww : Bytes → Res Bytes) (sep word : Bytes) (c next : Nat) (rest : List Nat)
    (i init : Nat) (mode : WordMode) (first : Bool) (out : Bytes) (hc : c ≠ 95) :
    heckWord U ww sep word (c :: next :: rest) i init mode first out =
      if next = 95 ∨ ((if U.isLower c then .lowercase else if U.isUpper c then .uppercase else mode) = WordMode.lowercase ∧
          U.isUpper next = true) then
        match heckEmit ww sep (goSlice word init (i + 1)) first out with
        | .ok o => heckWord U ww sep word (next :: rest) (i + 1) (i + 1) .boundary false o
        | .err x => .err x
        | .panic => .panic
      else if mode = .uppercase ∧ U.isUpper c = true ∧ U.isLower next = true then
        match heckEmit ww sep (goSlice word init i) first out with
        | .ok o => heckWord U ww sep word (next :: rest) (i + 1) i .boundary false o
        | .err x => .err x
        | .panic => .panic
      else heckWord U ww sep word (next :: rest) (i + 1) init
        (if U.isLower c then .lowercase else if U.isUpper c then .uppercase else mode) first out := by
  conv => lhs; rw [heckWord]
  rw [if_neg hc]
  rfl

/-- A character that goes to the pending part. -/
theorem part_pending (sep : Bytes) (hd : UInt8 → UInt8) (any first : Bool) (f p : Bytes) (c : UInt8) (hmp : Bool)
    (hf : first = (!any && f.isEmpty)) (h1 : p = [] → f = [] ∨ hmp = true) (h2 : p ≠ [] → hmp = false) :
    (if p = [] then [] else (if first then [] else sep) ++ styled hd p) ++
      (if (f ++ p).reverse.isEmpty || hmp then (if any || !(f ++ p).reverse.isEmpty then sep else []) ++ [hd c]
        else [toLowB c]) =
    (if first then [] else sep) ++ styled hd (p ++ [c]) := by
  by_cases hp : p = []
  · subst hp
    simp only [if_true, List.nil_append, List.append_nil]
    rcases h1 rfl with rfl | rfl
    · subst hf
      cases any <;> simp [styled]
    · subst hf
      cases any <;> cases f <;> simp [styled]
  · rw [if_neg hp, h2 hp, styled_append hd p hp]
    have : (f ++ p).reverse.isEmpty = false := by
      cases p with
      | nil => exact absurd rfl hp
      | cons x p => simp
    simp only [this, Bool.false_or, Bool.false_eq_true, if_false, List.append_assoc]

theorem heckWord_ascii {U : Uni} (hU : U.Ascii) {ww : Bytes → Res Bytes} {hd : UInt8 → UInt8} (hw : WordStyle ww hd)
    (sep : Bytes) (any : Bool) : ∀ (cs : Bytes) (c : UInt8) (f p : Bytes) (mode : WordMode) (first : Bool) (out : Bytes),
    (∀ x ∈ f ++ p, alnumB x = true) → alnumB c = true → (∀ x ∈ cs, alnumB x = true) →
    first = (!any && f.isEmpty) →
    (mode = modeOf (f ++ p).reverse ∨ (mode = .boundary ∧ upperB c = true ∧ modeOf (f ++ p).reverse = .lowercase) ∨
      (mode = .boundary ∧ lowerB c = true)) →
    (p = [] → f = [] ∨ (modeOf (f ++ p).reverse = .lowercase ∧ upperB c = true)) →
    (p ≠ [] → ¬ (modeOf (f ++ p).reverse = .lowercase ∧ upperB c = true)) →
    heckWord U ww sep (f ++ p ++ c :: cs) ((c :: cs).map UInt8.toNat) (f ++ p).length f.length mode first out =
      .ok (false, out ++ (if p = [] then [] else (if first then [] else sep) ++ styled hd p) ++
        styleRun sep hd any (f ++ p).reverse (c :: cs)) := by
  intro cs
  induction cs with
  | nil =>
    intro c f p mode first out ha hc hcs hf hm hp hnp
    have har : ∀ x ∈ (f ++ p).reverse, alnumB x = true := fun x hx => ha x (List.mem_reverse.mp hx)
    have hpc : AsciiS (p ++ [c]) := fun x hx => by
      rcases List.mem_append.mp hx with h | h
      · exact alnum_ascii (ha x (by simp [h]))
      · exact alnum_ascii (by rw [List.mem_singleton.mp h]; exact hc)
    have hsl : goSlice (f ++ p ++ [c]) f.length (f ++ p ++ [c]).length = .ok (p ++ [c]) := by
      have := goSlice_mid f (p ++ [c]) [] (f ++ p ++ [c]).length (by simp)
      simpa using this
    have hh := hump_mode har c []
    simp only [List.map_cons, List.map_nil, heckWord]
    rw [if_neg (alnum_ne95 hc), hsl]
    simp only [heckEmit, hw.ok _ hpc, styleRun, List.append_nil]
    rw [List.append_assoc out, List.append_assoc out, part_pending sep hd any first f p c _ hf ?_ ?_]
    · intro h
      rcases hp h with h | ⟨h, h'⟩
      · exact .inl h
      · right; rw [hh, h]; exact h'
    · intro h
      rw [hh]
      cases hmo : modeOf (f ++ p).reverse with
      | boundary => rfl
      | lowercase =>
        cases huc : upperB c with
        | false => rfl
        | true => exact absurd ⟨hmo, huc⟩ (hnp h)
      | uppercase => simp
  | cons n cs ih =>
    intro c f p mode first out ha hc hcs hf hm hp hnp
    have har : ∀ x ∈ (f ++ p).reverse, alnumB x = true := fun x hx => ha x (List.mem_reverse.mp hx)
    have hn : alnumB n = true := hcs n (by simp)
    have hc128 := alnum_ascii hc
    have hn128 := alnum_ascii hn
    have hcs' : ∀ x ∈ cs, alnumB x = true := fun x hx => hcs x (by simp [hx])
    have hpc : AsciiS (p ++ [c]) := fun x hx => by
      rcases List.mem_append.mp hx with h | h
      · exact alnum_ascii (ha x (by simp [h]))
      · exact alnum_ascii (by rw [List.mem_singleton.mp h]; exact hc)
    have hpa : AsciiS p := fun x hx => alnum_ascii (ha x (by simp [hx]))
    have hh := hump_mode har c (n :: cs)
    have hnm : (if lowerB c = true then WordMode.lowercase else if upperB c = true then .uppercase else mode) =
        modeOf (c :: (f ++ p).reverse) := by
      rw [modeOf_cons]
      rcases hm with h | ⟨_, h, _⟩ | ⟨_, h⟩
      · rw [h]
      · simp [h, upper_not_lower h]
      · simp [h]
    have hmode' : ∀ x ∈ f ++ p ++ [c], alnumB x = true := by
      intro x hx
      rcases List.mem_append.mp hx with h | h
      · exact ha x h
      · rw [List.mem_singleton.mp h]; exact hc
    have hrev : (f ++ p ++ [c]).reverse = c :: (f ++ p).reverse := by simp
    -- appending `c` to the pending part
    have hpend : hump (f ++ p).reverse c (n :: cs) = true → p ≠ [] → (mode = .uppercase ∧ upperB c = true ∧ lowerB n = true) := by
      intro h hpn
      rw [hh] at h
      cases hmo : modeOf (f ++ p).reverse with
      | boundary => rw [hmo] at h; cases h
      | lowercase => rw [hmo] at h; exact absurd ⟨hmo, h⟩ (hnp hpn)
      | uppercase =>
        rw [hmo] at h
        simp only [Bool.and_eq_true] at h
        refine ⟨?_, h.1, h.2⟩
        rcases hm with h' | ⟨_, _, h'⟩ | ⟨_, h'⟩
        · rw [h', hmo]
        · rw [hmo] at h'; cases h'
        · rw [upper_not_lower h.1] at h'; cases h'
    have hstart : p = [] → f = [] ∨ hump (f ++ p).reverse c (n :: cs) = true := by
      intro h
      rcases hp h with h | ⟨h, h'⟩
      · exact .inl h
      · right; rw [hh, h]; exact h'
    rw [List.map_cons, List.map_cons, heckWord_two _ _ _ _ _ _ _ _ _ _ _ _ (alnum_ne95 hc)]
    rw [hU.lower c hc128, hU.upper c hc128, hU.upper n hn128, hU.lower n hn128, hnm]
    by_cases h1 : n.toNat = 95 ∨ (modeOf (c :: (f ++ p).reverse) = .lowercase ∧ upperB n = true)
    · have h1' := h1.resolve_left (alnum_ne95 hn)
      rw [if_pos h1]
      have hsl : goSlice (f ++ p ++ c :: n :: cs) f.length ((f ++ p).length + 1) = .ok (p ++ [c]) := by
        have := goSlice_mid f (p ++ [c]) (n :: cs) ((f ++ p).length + 1) (by simp; omega)
        simpa using this
      rw [hsl]
      simp only [heckEmit, hw.ok _ hpc]
      have ih' := ih n (f ++ p ++ [c]) [] .boundary false (out ++ (if first then [] else sep) ++ styled hd (p ++ [c]))
        (by rw [List.append_nil]; exact hmode') hn hcs' (by simp) (.inr (.inl ⟨rfl, h1'.2, by rw [List.append_nil, hrev]; exact h1'.1⟩))
        (fun _ => .inr ⟨by rw [List.append_nil, hrev]; exact h1'.1, h1'.2⟩) (fun h => absurd rfl h)
      simp only [List.append_nil, hrev, if_true] at ih'
      rw [show f ++ p ++ [c] ++ n :: cs = f ++ p ++ c :: n :: cs by simp,
        show (f ++ p ++ [c]).length = (f ++ p).length + 1 by simp [Nat.add_assoc], List.map_cons] at ih'
      rw [ih']
      congr 2
      conv => rhs; rw [styleRun]
      rw [← List.append_assoc, List.append_assoc out (if p = [] then _ else _),
        part_pending sep hd any first f p c _ hf hstart ?_, List.append_assoc out]
      intro hpn
      cases hhump : hump (f ++ p).reverse c (n :: cs) with
      | false => rfl
      | true =>
        have := (hpend hhump hpn).2.2
        rw [upper_not_lower h1'.2] at this; cases this
    · rw [if_neg h1]
      by_cases h2 : mode = .uppercase ∧ upperB c = true ∧ lowerB n = true
      · rw [if_pos h2]
        have hmo : modeOf (f ++ p).reverse = .uppercase := by
          rcases hm with h | ⟨h, _⟩ | ⟨h, _⟩
          · rw [← h]; exact h2.1
          · rw [h2.1] at h; cases h
          · rw [h2.1] at h; cases h
        have hpn : p ≠ [] := by
          intro h
          rcases hp h with h' | ⟨h', _⟩
          · subst h; subst h'; cases hmo
          · rw [hmo] at h'; cases h'
        have hhump : hump (f ++ p).reverse c (n :: cs) = true := by
          rw [hh, hmo]; simp [h2.2.1, h2.2.2]
        have hsl : goSlice (f ++ p ++ c :: n :: cs) f.length (f ++ p).length = .ok p :=
          goSlice_mid f p (c :: n :: cs) _ (by simp)
        rw [hsl]
        simp only [heckEmit, hw.ok _ hpa]
        have ih' := ih n (f ++ p) [c] .boundary false (out ++ (if first then [] else sep) ++ styled hd p)
          hmode' hn hcs' (by cases p with | nil => exact absurd rfl hpn | cons x p => simp) (.inr (.inr ⟨rfl, h2.2.2⟩))
          (fun h => by cases h) (fun _ h => by
            have := h.2
            have h' := upper_not_lower this
            rw [h2.2.2] at h'; cases h')
        simp only [hrev, if_neg (List.cons_ne_nil c [])] at ih'
        rw [show f ++ p ++ [c] ++ n :: cs = f ++ p ++ c :: n :: cs by simp,
          show (f ++ p ++ [c]).length = (f ++ p).length + 1 by simp [Nat.add_assoc], List.map_cons] at ih'
        rw [ih']
        congr 2
        conv => rhs; rw [styleRun]
        have hne : (f ++ p).reverse.isEmpty = false := by
          cases p with
          | nil => exact absurd rfl hpn
          | cons x p => simp
        rw [if_neg hpn, hhump, hne]
        simp [styled]
      · rw [if_neg h2]
        have hhump : p ≠ [] → hump (f ++ p).reverse c (n :: cs) = false := by
          intro hpn
          cases hx : hump (f ++ p).reverse c (n :: cs) with
          | false => rfl
          | true => exact absurd (hpend hx hpn) h2
        have ih' := ih n f (p ++ [c]) (modeOf (c :: (f ++ p).reverse)) first out
          (by rw [← List.append_assoc]; exact hmode') hn hcs' hf (.inl (by rw [← List.append_assoc, hrev]))
          (fun h => by simp at h)
          (fun _ h => h1 (.inr (by rw [← List.append_assoc, hrev] at h; exact h)))
        simp only [← List.append_assoc, hrev] at ih'
        rw [show f ++ p ++ [c] ++ n :: cs = f ++ p ++ c :: n :: cs by simp,
          show (f ++ p ++ [c]).length = (f ++ p).length + 1 by simp [Nat.add_assoc], List.map_cons, if_neg (by simp)] at ih'
        rw [ih']
        congr 2
        conv => rhs; rw [styleRun]
        rw [← List.append_assoc (out ++ _), List.append_assoc out (if p = [] then _ else _),
          part_pending sep hd any first f p c _ hf hstart hhump]

/-- One word from the start. -/
theorem heckWord_start {U : Uni} (hU : U.Ascii) {ww : Bytes → Res Bytes} {hd : UInt8 → UInt8} (hw : WordStyle ww hd)
    (sep : Bytes) (w : Bytes) (hne : w ≠ []) (ha : ∀ x ∈ w, alnumB x = true) (first : Bool) (out : Bytes) :
    heckWord U ww sep w ((runesOf w).map (·.1)) 0 0 .boundary first out =
      .ok (false, out ++ styleRun sep hd (!first) [] w) := by
  rw [runes_ascii fun x hx => alnum_ascii (ha x hx)]
  cases w with
  | nil => exact absurd rfl hne
  | cons c cs =>
    have := heckWord_ascii hU hw sep (!first) cs c [] [] .boundary first out (by simp) (ha c (by simp))
      (fun x hx => ha x (by simp [hx])) (by simp) (.inl rfl) (fun _ => .inl rfl) (fun h => absurd rfl h)
    simpa using this

theorem heckWords_fields {U : Uni} (hU : U.Ascii) {ww : Bytes → Res Bytes} {hd : UInt8 → UInt8} (hw : WordStyle ww hd)
    (sep : Bytes) : ∀ (s cur pre : Bytes) (out : Bytes), AsciiS s → (∀ x ∈ cur, alnumB x = true) → SepHead pre →
    heckWords U ww sep (fieldsFunc (fun r => !(U.isLetter r || U.isDigit r)) (s.map fun b => (b.toNat, [b])) cur)
      (!pre.any alnumB) out = .ok (out ++ styleAt sep hd pre (cur ++ s))
  | [], cur, pre, out, _, hc, hp => by
    have hst := styleAt_run sep hd [] (.inl rfl) pre hp cur [] (by simp) hc
    simp only [List.nil_append, List.append_nil, styleAt] at hst
    simp only [List.map_nil, fieldsFunc, List.append_nil]
    by_cases h : cur = []
    · subst h; simp [heckWords, styleAt]
    · rw [if_neg h]
      simp only [heckWords, heckWord_start hU hw sep cur h hc, Bool.not_not]
      rw [hst]
  | b :: s, cur, pre, out, hs, hc, hp => by
    have hb : b < 128 := hs b (by simp)
    have hs' : AsciiS s := fun x hx => hs x (by simp [hx])
    have hsep : (!(U.isLetter b.toNat || U.isDigit b.toNat)) = !alnumB b := by
      rw [hU.letter b hb, hU.digit b hb]; rfl
    simp only [List.map_cons, fieldsFunc, hsep]
    cases hal : alnumB b with
    | true =>
      have ih := heckWords_fields hU hw sep s (cur ++ [b]) pre out hs' (by
        intro x hx
        rcases List.mem_append.mp hx with h | h
        · exact hc x h
        · rw [List.mem_singleton.mp h]; exact hal) hp
      simpa using ih
    | false =>
      simp only [Bool.not_false, if_true]
      by_cases h : cur = []
      · subst h
        rw [if_pos rfl]
        have ih := heckWords_fields hU hw sep s [] (b :: pre) out hs' (by simp) (.inr ⟨b, pre, rfl, hal⟩)
        simp only [List.any_cons, hal, Bool.false_or, List.nil_append] at ih
        rw [ih]
        simp [styleAt, hal]
      · rw [if_neg h]
        simp only [heckWords, heckWord_start hU hw sep cur h hc, Bool.not_not]
        have hst := styleAt_run sep hd (b :: s) (.inr ⟨b, s, rfl, hal⟩) pre hp cur [] (by simp) hc
        have ih := heckWords_fields hU hw sep s [] (b :: (cur.reverse ++ pre))
          (out ++ styleRun sep hd (pre.any alnumB) [] cur) hs' (by simp) (.inr ⟨b, _, rfl, hal⟩)
        have hany : (cur.reverse ++ pre).any alnumB = true := by
          cases cur with
          | nil => exact absurd rfl h
          | cons x cur => simp [hc x (by simp)]
        simp only [List.any_cons, hal, Bool.false_or, hany, Bool.not_true, List.nil_append] at ih
        rw [ih]
        simp only [List.nil_append, List.append_nil] at hst
        rw [hst, List.append_assoc]
        congr 3
        simp [styleAt, hal]

theorem snake_eq {U : Uni} (hU : U.Ascii) {s : Bytes} (h : AsciiS s) : toRustSnakeCase U s = .ok (snake s) := by
  have := heckWords_fields hU (snakeStyle hU) [95] s [] [] [] h (by simp) (.inl rfl)
  unfold toRustSnakeCase splitIntoWords
  rw [runesOf_ascii h]
  exact this

theorem pascal_eq {U : Uni} (hU : U.Ascii) {s : Bytes} (h : AsciiS s) : toPascalCase U s = .ok (pascal s) := by
  have := heckWords_fields hU (pascalStyle hU) [] s [] [] [] h (by simp) (.inl rfl)
  unfold toPascalCase splitIntoWords
  rw [runesOf_ascii h]
  exact this

end Verif
