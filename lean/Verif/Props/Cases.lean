import Verif.Proofs.Heck
/-! Properties C50 and C51: snake case and Pascal case. -/
namespace Verif.Props
open Verif Verif.Spec

/-- C50: on every ASCII string `ToRustSnakeCase` writes exactly the words of `Spec.Cases` in lower case, separated by
underscores. -/
theorem C50_exact (U : Uni) (hU : U.Ascii) (s : Bytes) (hs : AsciiS s) :
    toRustSnakeCase U s = .ok (snake s) ∧ toSnakeForSighash U s = .ok (snake s) :=
  ⟨snake_eq hU hs, snake_eq hU hs⟩

/-- What styling writes for one character. -/
theorem style_chunk (sep : Bytes) (hd : UInt8 → UInt8) (pre : Bytes) (c : UInt8) (post : Bytes) :
    styleAt sep hd pre (c :: post) = styleAt sep hd (c :: pre) post ∧ alnumB c = false ∨
    alnumB c = true ∧ (styleAt sep hd pre (c :: post) = toLowB c :: styleAt sep hd (c :: pre) post ∧ pre ≠ [] ∨
      styleAt sep hd pre (c :: post) = hd c :: styleAt sep hd (c :: pre) post ∧ pre.any alnumB = false ∨
      styleAt sep hd pre (c :: post) = sep ++ hd c :: styleAt sep hd (c :: pre) post ∧ pre.any alnumB = true) := by
  rw [styleAt]
  cases hc : alnumB c with
  | false => left; simp
  | true =>
    right
    simp only [if_true, true_and]
    cases hst : startsWord pre c post with
    | false =>
      left
      refine ⟨by simp, fun h => ?_⟩
      subst h; simp [startsWord] at hst
    | true =>
      right
      cases pre.any alnumB <;> simp

theorem low_facts (b : UInt8) (h : alnumB b = true) :
    (lowerB (toLowB b) || digitB (toLowB b)) = true ∧ toLowB b ≠ 95 ∧ alnumB (toLowB b) = true := by
  have := byte_all (fun b => !alnumB b || ((lowerB (toLowB b) || digitB (toLowB b)) && decide (toLowB b ≠ 95) &&
    alnumB (toLowB b))) (by decide +kernel) b
  rw [h] at this
  simp only [Bool.not_true, Bool.false_or, Bool.and_eq_true, decide_eq_true_eq] at this
  exact ⟨this.1.1, this.1.2, this.2⟩

theorem up_facts (b : UInt8) (h : alnumB b = true) :
    (upperB (toUpB b) || digitB (toUpB b)) = true ∧ toLowB (toUpB b) = toLowB b ∧ alnumB (toUpB b) = true := by
  have := byte_all (fun b => !alnumB b || ((upperB (toUpB b) || digitB (toUpB b)) && decide (toLowB (toUpB b) = toLowB b) &&
    alnumB (toUpB b))) (by decide +kernel) b
  rw [h] at this
  simp only [Bool.not_true, Bool.false_or, Bool.and_eq_true, decide_eq_true_eq] at this
  exact ⟨this.1.1, this.1.2, this.2⟩

theorem snake_chars : ∀ (s pre : Bytes), ∀ b ∈ styleAt [95] toLowB pre s, lowerB b = true ∨ digitB b = true ∨ b = 95
  | [], pre, b, h => by simp [styleAt] at h
  | c :: s, pre, b, h => by
    have ih := snake_chars s (c :: pre) b
    have key : ∀ (hc : alnumB c = true), b = toLowB c → lowerB b = true ∨ digitB b = true ∨ b = 95 := by
      intro hc hb
      have := (low_facts c hc).1
      rw [← hb, Bool.or_eq_true] at this
      rcases this with h | h
      · exact .inl h
      · exact .inr (.inl h)
    rcases style_chunk [95] toLowB pre c s with ⟨h', _⟩ | ⟨hc, ⟨h', _⟩ | ⟨h', _⟩ | ⟨h', _⟩⟩
    · rw [h'] at h; exact ih h
    · rw [h', List.mem_cons] at h; exact h.elim (key hc) ih
    · rw [h', List.mem_cons] at h; exact h.elim (key hc) ih
    · rw [h', List.singleton_append, List.mem_cons, List.mem_cons] at h
      rcases h with h | h | h
      · exact .inr (.inr h)
      · exact key hc h
      · exact ih h

/-- C50: the output consists of lower-case letters, digits and underscores. -/
theorem C50_chars (U : Uni) (hU : U.Ascii) (s : Bytes) (hs : AsciiS s) (t : Bytes) (ht : toRustSnakeCase U s = .ok t) :
    ∀ b ∈ t, lowerB b = true ∨ digitB b = true ∨ b = 95 := by
  rw [snake_eq hU hs] at ht
  cases ht
  exact snake_chars s []

theorem style_letters (sep : Bytes) (hd : UInt8 → UInt8) (hsep : sep.filter alnumB = [])
    (hhd : ∀ b, alnumB b = true → alnumB (hd b) = true ∧ toLowB (hd b) = toLowB b) : ∀ (s pre : Bytes),
    ((styleAt sep hd pre s).filter alnumB).map toLowB = (s.filter alnumB).map toLowB
  | [], pre => rfl
  | c :: s, pre => by
    have ih := style_letters sep hd hsep hhd s (c :: pre)
    have hll : ∀ (h : alnumB c = true), toLowB (toLowB c) = toLowB c := by
      intro h
      have := byte_all (fun b => decide (toLowB (toLowB b) = toLowB b)) (by decide +kernel) c
      exact of_decide_eq_true this
    rcases style_chunk sep hd pre c s with ⟨h', hc⟩ | ⟨hc, ⟨h', _⟩ | ⟨h', _⟩ | ⟨h', _⟩⟩
    · rw [h', ih, List.filter_cons_of_neg (by simp [hc])]
    · rw [h', List.filter_cons_of_pos (low_facts c hc).2.2, List.filter_cons_of_pos hc]
      simp only [List.map_cons, ih, hll hc]
    · rw [h', List.filter_cons_of_pos (hhd c hc).1, List.filter_cons_of_pos hc]
      simp only [List.map_cons, ih, (hhd c hc).2]
    · rw [h', List.filter_append, hsep, List.nil_append, List.filter_cons_of_pos (hhd c hc).1, List.filter_cons_of_pos hc]
      simp only [List.map_cons, ih, (hhd c hc).2]

theorem low_low (b : UInt8) : toLowB (toLowB b) = toLowB b :=
  of_decide_eq_true (byte_all (fun b => decide (toLowB (toLowB b) = toLowB b)) (by decide +kernel) b)

theorem lowered {b : UInt8} (h : lowerB b = true ∨ digitB b = true ∨ b = 95) : toLowB b = b := by
  have := byte_all (fun b => !(lowerB b || digitB b || decide (b = 95)) || decide (toLowB b = b)) (by decide +kernel) b
  have h' : (lowerB b || digitB b || decide (b = 95)) = true := by
    rcases h with h | h | h <;> simp [h]
  rw [h'] at this
  exact of_decide_eq_true this

/-- C50: the letters and digits of the output are those of the input, lower-cased, in order. -/
theorem C50_letters (U : Uni) (hU : U.Ascii) (s : Bytes) (hs : AsciiS s) (t : Bytes)
    (ht : toRustSnakeCase U s = .ok t) : t.filter alnumB = (s.filter alnumB).map toLowB := by
  have hch := C50_chars U hU s hs t ht
  rw [snake_eq hU hs] at ht
  cases ht
  have h := style_letters [95] toLowB (by decide)
    (fun b hb => ⟨(low_facts b hb).2.2, low_low b⟩) s []
  rw [← h, show styleAt [95] toLowB [] s = snake s from rfl]
  conv => lhs; rw [← List.map_id ((snake s).filter alnumB)]
  exact List.map_congr_left fun b hb => (lowered (hch b (List.mem_filter.mp hb).1)).symm

/-- no doubled and no trailing underscore, and none at the start if `p` -/
def tidy : Bool → Bytes → Prop
  | p, [] => p = false
  | p, c :: t => if c = 95 then p = false ∧ tidy true t else tidy false t

theorem snake_tidy : ∀ (s pre : Bytes), tidy false (styleAt [95] toLowB pre s)
  | [], pre => rfl
  | c :: s, pre => by
    have ih := snake_tidy s (c :: pre)
    rcases style_chunk [95] toLowB pre c s with ⟨h', hc⟩ | ⟨hc, ⟨h', _⟩ | ⟨h', _⟩ | ⟨h', _⟩⟩
    · rw [h']; exact ih
    · rw [h', tidy, if_neg (low_facts c hc).2.1]; exact ih
    · rw [h', tidy, if_neg (low_facts c hc).2.1]; exact ih
    · rw [h', List.singleton_append, tidy, if_pos rfl, tidy, if_neg (low_facts c hc).2.1]; exact ⟨rfl, ih⟩

theorem snake_head : ∀ (s pre : Bytes), pre.any alnumB = false → (styleAt [95] toLowB pre s).head? ≠ some 95
  | [], pre, _ => by simp [styleAt]
  | c :: s, pre, hp => by
    rcases style_chunk [95] toLowB pre c s with ⟨h', hc⟩ | ⟨hc, ⟨h', _⟩ | ⟨h', _⟩ | ⟨_, h'⟩⟩
    · rw [h']; exact snake_head s (c :: pre) (by simp [hc, hp])
    · rw [h']; simpa using (low_facts c hc).2.1
    · rw [h']; simpa using (low_facts c hc).2.1
    · rw [hp] at h'; cases h'

theorem tidy_doubled : ∀ (a b : Bytes) (p : Bool), ¬ tidy p (a ++ 95 :: 95 :: b)
  | [], b, p, h => by
    simp only [List.nil_append, tidy, if_true] at h
    exact absurd h.2.1 (by simp)
  | c :: a, b, p, h => by
    rw [List.cons_append, tidy] at h
    split at h
    · exact tidy_doubled a b _ h.2
    · exact tidy_doubled a b _ h

theorem tidy_last : ∀ (a : Bytes) (p : Bool), ¬ tidy p (a ++ [95])
  | [], p, h => by
    simp only [List.nil_append, tidy, if_true] at h
    exact absurd h.2 (by simp)
  | c :: a, p, h => by
    rw [List.cons_append, tidy] at h
    split at h
    · exact tidy_last a _ h.2
    · exact tidy_last a _ h

/-- C50: no leading, trailing or doubled underscore. -/
theorem C50_underscores (U : Uni) (hU : U.Ascii) (s : Bytes) (hs : AsciiS s) (t : Bytes)
    (ht : toRustSnakeCase U s = .ok t) :
    t.head? ≠ some 95 ∧ t.getLast? ≠ some 95 ∧ ∀ a b, t ≠ a ++ 95 :: 95 :: b := by
  rw [snake_eq hU hs] at ht
  cases ht
  have ht := snake_tidy s []
  refine ⟨snake_head s [] rfl, fun h => ?_, fun a b h => ?_⟩
  · obtain ⟨a, ha⟩ := List.getLast?_eq_some_iff.mp h
    rw [show styleAt [95] toLowB [] s = snake s from rfl, ha] at ht
    exact tidy_last _ _ ht
  · rw [show styleAt [95] toLowB [] s = snake s from rfl, h] at ht
    exact tidy_doubled _ _ _ ht

theorem alnum_of {b : UInt8} (h : lowerB b = true ∨ digitB b = true ∨ b = 95) (hne : b ≠ 95) :
    alnumB b = true ∧ upperB b = false := by
  have := byte_all (fun b => !(lowerB b || digitB b) || (alnumB b && !upperB b)) (by decide +kernel) b
  have h' : (lowerB b || digitB b) = true := by
    rcases h with h | h | h
    · simp [h]
    · simp [h]
    · exact absurd h hne
  rw [h'] at this
  simpa using this

theorem hump_low {b : UInt8} (h : upperB b = false) (pre post : Bytes) : hump pre b post = false := by
  unfold hump
  cases lastLetter pre with
  | none => rfl
  | some l => simp [h]

/-- A tidy lower-case string is its own snake case. -/
theorem snake_fixed : ∀ (t pre : Bytes) (p : Bool), (∀ b ∈ t, lowerB b = true ∨ digitB b = true ∨ b = 95) → tidy p t →
    (p = true → ∃ pre', pre = 95 :: pre' ∧ pre'.any alnumB = true) →
    (p = false → pre = [] ∧ t.head? ≠ some 95 ∨ ∃ x pre', pre = x :: pre' ∧ alnumB x = true) →
    styleAt [95] toLowB pre t = if p then 95 :: t else t
  | [], pre, p, _, ht, _, _ => by
    rw [show p = false from ht]; rfl
  | c :: t, pre, p, hch, ht, hp, hnp => by
    have hch' : ∀ b ∈ t, lowerB b = true ∨ digitB b = true ∨ b = 95 := fun b hb => hch b (by simp [hb])
    rw [tidy] at ht
    by_cases hc : c = 95
    · subst hc
      rw [if_pos rfl] at ht
      have hpf := ht.1
      subst hpf
      have ih := snake_fixed t (95 :: pre) true hch' ht.2 (fun _ => ⟨pre, rfl, by
        rcases hnp rfl with ⟨_, h⟩ | ⟨x, pre', rfl, hx⟩
        · simp at h
        · simp [hx]⟩) (fun h => by cases h)
      rw [styleAt, ih]
      rfl
    · rw [if_neg hc] at ht
      obtain ⟨hal, hup⟩ := alnum_of (hch c (by simp)) hc
      have ih := snake_fixed t (c :: pre) false hch' ht (fun h => by cases h) (fun _ => .inr ⟨c, pre, rfl, hal⟩)
      have hlow := lowered (hch c (by simp))
      rw [styleAt, ih, hal]
      cases p with
      | true =>
        obtain ⟨pre', rfl, hany⟩ := hp rfl
        have : alnumB 95 = false := by decide
        simp [startsWord, this, hany, hlow]
      | false =>
        rcases hnp rfl with ⟨rfl, _⟩ | ⟨x, pre', rfl, hx⟩
        · simp [startsWord, hlow]
        · simp [startsWord, hx, hump_low hup, hlow]

/-- C50: applying it twice changes nothing. -/
theorem C50_idempotent (U : Uni) (hU : U.Ascii) (s : Bytes) (hs : AsciiS s) (t : Bytes)
    (ht : toRustSnakeCase U s = .ok t) : toRustSnakeCase U t = .ok t := by
  have hch := C50_chars U hU s hs t ht
  have hun := C50_underscores U hU s hs t ht
  have hta : AsciiS t := fun b hb => by
    have := byte_all (fun b => !(lowerB b || digitB b || decide (b = 95)) || decide (b < 128)) (by decide +kernel) b
    have h' : (lowerB b || digitB b || decide (b = 95)) = true := by
      rcases hch b hb with h | h | h <;> simp [h]
    rw [h'] at this
    exact of_decide_eq_true this
  rw [snake_eq hU hta]
  rw [snake_eq hU hs] at ht
  cases ht
  congr 1
  exact snake_fixed (snake s) [] false hch (snake_tidy s []) (fun h => by cases h) (fun _ => .inl ⟨rfl, hun.1⟩)

/-- ASCII-only tables: an instance of the hypothesis. -/
def asciiUni : Uni where
  isLetter r := (65 ≤ r && r ≤ 90) || (97 ≤ r && r ≤ 122)
  isDigit r := 48 ≤ r && r ≤ 57
  isUpper r := 65 ≤ r && r ≤ 90
  isLower r := 97 ≤ r && r ≤ 122
  toLower r := if 65 ≤ r ∧ r ≤ 90 then r + 32 else r
  toUpper r := if 97 ≤ r ∧ r ≤ 122 then r - 32 else r

theorem asciiUni_ascii : asciiUni.Ascii where
  letter b _ := of_decide_eq_true (byte_all (fun b => decide (asciiUni.isLetter b.toNat = (upperB b || lowerB b)))
    (by decide +kernel) b)
  digit b _ := of_decide_eq_true (byte_all (fun b => decide (asciiUni.isDigit b.toNat = digitB b)) (by decide +kernel) b)
  upper b _ := of_decide_eq_true (byte_all (fun b => decide (asciiUni.isUpper b.toNat = upperB b)) (by decide +kernel) b)
  lower b _ := of_decide_eq_true (byte_all (fun b => decide (asciiUni.isLower b.toNat = lowerB b)) (by decide +kernel) b)
  toLow b _ := of_decide_eq_true (byte_all (fun b => decide (asciiUni.toLower b.toNat = (toLowB b).toNat))
    (by decide +kernel) b)
  toUp b _ := of_decide_eq_true (byte_all (fun b => decide (asciiUni.toUpper b.toNat = (toUpB b).toNat))
    (by decide +kernel) b)

/-- "XMLHttp_req2Go" gives "xml_http_req2_go" and "XmlHttpReq2Go". -/
example : toRustSnakeCase asciiUni ("XMLHttp_req2Go".toUTF8.toList) = .ok ("xml_http_req2_go".toUTF8.toList) ∧
    toPascalCase asciiUni ("XMLHttp_req2Go".toUTF8.toList) = .ok ("XmlHttpReq2Go".toUTF8.toList) := by
  decide +kernel

/-- C51: on every ASCII string `ToPascalCase` writes exactly the words of `Spec.Cases`, each capitalised. -/
theorem C51_exact (U : Uni) (hU : U.Ascii) (s : Bytes) (hs : AsciiS s) : toPascalCase U s = .ok (pascal s) :=
  pascal_eq hU hs

theorem pascal_chars : ∀ (s pre : Bytes), ∀ b ∈ styleAt [] toUpB pre s, alnumB b = true
  | [], pre, b, h => by simp [styleAt] at h
  | c :: s, pre, b, h => by
    have ih := pascal_chars s (c :: pre) b
    rcases style_chunk [] toUpB pre c s with ⟨h', _⟩ | ⟨hc, ⟨h', _⟩ | ⟨h', _⟩ | ⟨h', _⟩⟩
    · rw [h'] at h; exact ih h
    · rw [h', List.mem_cons] at h; exact h.elim (fun h => h ▸ (low_facts c hc).2.2) ih
    · rw [h', List.mem_cons] at h; exact h.elim (fun h => h ▸ (up_facts c hc).2.2) ih
    · rw [h', List.nil_append, List.mem_cons] at h; exact h.elim (fun h => h ▸ (up_facts c hc).2.2) ih

/-- C51: the output contains only letters and digits. -/
theorem C51_chars (U : Uni) (hU : U.Ascii) (s : Bytes) (hs : AsciiS s) (t : Bytes) (ht : toPascalCase U s = .ok t) :
    ∀ b ∈ t, alnumB b = true := by
  rw [pascal_eq hU hs] at ht
  cases ht
  exact pascal_chars s []

theorem pascal_head : ∀ (s pre : Bytes), pre.any alnumB = false → ∀ b t, styleAt [] toUpB pre s = b :: t →
    upperB b = true ∨ digitB b = true
  | [], pre, _, b, t, h => by simp [styleAt] at h
  | c :: s, pre, hp, b, t, h => by
    rw [styleAt] at h
    cases hc : alnumB c with
    | false =>
      simp only [hc, Bool.false_eq_true, if_false, List.nil_append] at h
      exact pascal_head s (c :: pre) (by simp [hc, hp]) b t h
    | true =>
      have hst : startsWord pre c s = true := by
        cases pre with
        | nil => rfl
        | cons x pre =>
          simp only [List.any_cons, Bool.or_eq_false_iff] at hp
          simp [startsWord, hp.1]
      simp only [hc, hst, if_true, List.nil_append, ite_self, List.singleton_append, List.cons.injEq] at h
      have := (up_facts c hc).1
      rw [h.1, Bool.or_eq_true] at this
      exact this

/-- C51: the output starts with an upper-case letter or a digit. -/
theorem C51_start (U : Uni) (hU : U.Ascii) (s : Bytes) (hs : AsciiS s) (b : UInt8) (t : Bytes)
    (ht : toPascalCase U s = .ok (b :: t)) : upperB b = true ∨ digitB b = true := by
  rw [pascal_eq hU hs] at ht
  exact pascal_head s [] rfl b t (Res.ok.inj ht)

/-- C51: the letters and digits of the output are those of the input up to case, in order. -/
theorem C51_letters (U : Uni) (hU : U.Ascii) (s : Bytes) (hs : AsciiS s) (t : Bytes) (ht : toPascalCase U s = .ok t) :
    t.map toLowB = (s.filter alnumB).map toLowB := by
  have hch := C51_chars U hU s hs t ht
  rw [pascal_eq hU hs] at ht
  cases ht
  have h := style_letters [] toUpB rfl (fun b hb => ⟨(up_facts b hb).2.2, (up_facts b hb).2.1⟩) s []
  rw [← h]
  congr 1
  exact (List.filter_eq_self.mpr hch).symm

theorem up_low (b : UInt8) : toUpB (toLowB b) = toUpB b :=
  of_decide_eq_true (byte_all (fun b => decide (toUpB (toLowB b) = toUpB b)) (by decide +kernel) b)

theorem not_start {pre : Bytes} {c : UInt8} {post : Bytes} (h : startsWord pre c post = false) :
    pre.any alnumB = true := by
  cases pre with
  | nil => cases h
  | cons x pre =>
    simp only [startsWord, Bool.or_eq_false_iff, Bool.not_eq_false'] at h
    simp [h.1]

/-- Pascal case of the snake case, `pre'` being the snake case of `pre` in reverse. -/
theorem pascal_snake : ∀ (s pre pre' : Bytes), pre'.any alnumB = pre.any alnumB →
    (pre' = [] ∨ ∃ x r, pre' = x :: r ∧ alnumB x = true) →
    styleAt [] toUpB pre' (styleAt [95] toLowB pre s) = styleAt [] toUpB pre s
  | [], pre, pre', _, _ => by simp [styleAt]
  | c :: s, pre, pre', ha, hh => by
    rw [styleAt, styleAt]
    cases hc : alnumB c with
    | false =>
      simp only [Bool.false_eq_true, if_false, List.nil_append]
      exact pascal_snake s (c :: pre) pre' (by simp [hc, ha]) hh
    | true =>
      simp only [if_true]
      have hlc := (low_facts c hc).2.2
      have hlu : upperB (toLowB c) = false := by
        have := byte_all (fun b => !upperB (toLowB b)) (by decide +kernel) c
        simpa using this
      have hx : pre.any alnumB = true → ∃ x r, pre' = x :: r ∧ alnumB x = true := by
        intro h
        rcases hh with rfl | h'
        · rw [h] at ha; cases ha
        · exact h'
      cases hst : startsWord pre c s with
      | false =>
        obtain ⟨x, r, rfl, hxa⟩ := hx (not_start hst)
        have ih := pascal_snake s (c :: pre) (toLowB c :: x :: r) (by simp [hc, hlc]) (.inr ⟨_, _, rfl, hlc⟩)
        simp only [Bool.false_eq_true, if_false, List.singleton_append]
        rw [styleAt, ih, hlc]
        simp [startsWord, hxa, hump_low hlu, low_low]
      | true =>
        simp only [if_true]
        cases hany : pre.any alnumB with
        | false =>
          have hnil : pre' = [] := by
            rcases hh with h | ⟨x, r, rfl, hxa⟩
            · exact h
            · rw [hany] at ha; simp [hxa] at ha
          subst hnil
          have ih := pascal_snake s (c :: pre) [toLowB c] (by simp [hc, hlc]) (.inr ⟨_, _, rfl, hlc⟩)
          simp only [Bool.false_eq_true, if_false, List.nil_append, List.singleton_append]
          rw [styleAt, ih, hlc]
          simp [startsWord, up_low]
        | true =>
          obtain ⟨x, r, rfl, hxa⟩ := hx hany
          have ih := pascal_snake s (c :: pre) (toLowB c :: 95 :: x :: r) (by simp [hc, hlc]) (.inr ⟨_, _, rfl, hlc⟩)
          have h95 : alnumB 95 = false := by decide
          simp only [if_true, List.singleton_append, List.cons_append, List.nil_append]
          rw [styleAt, styleAt, ih, hlc, h95]
          simp [startsWord, h95, up_low]

/-- C63: Pascal case does not change when the string is put into snake case first, so it depends on the snake form
only. -/
theorem C63_pascal_snake (U : Uni) (hU : U.Ascii) (s : Bytes) (hs : AsciiS s) (t : Bytes)
    (ht : toRustSnakeCase U s = .ok t) : toPascalCase U t = toPascalCase U s := by
  have hch := C50_chars U hU s hs t ht
  have hta : AsciiS t := fun b hb => by
    have := byte_all (fun b => !(lowerB b || digitB b || decide (b = 95)) || decide (b < 128)) (by decide +kernel) b
    have h' : (lowerB b || digitB b || decide (b = 95)) = true := by
      rcases hch b hb with h | h | h <;> simp [h]
    rw [h'] at this
    exact of_decide_eq_true this
  rw [pascal_eq hU hta, pascal_eq hU hs]
  rw [snake_eq hU hs] at ht
  cases ht
  congr 1
  exact pascal_snake s [] [] rfl (.inl rfl)

/-- C63: two spellings with the same snake case have the same Pascal case. -/
theorem C63_same (U : Uni) (hU : U.Ascii) (s s' : Bytes) (hs : AsciiS s) (hs' : AsciiS s')
    (h : toRustSnakeCase U s = toRustSnakeCase U s') : toPascalCase U s = toPascalCase U s' := by
  obtain ⟨t, ht⟩ : ∃ t, toRustSnakeCase U s = .ok t := ⟨_, snake_eq hU hs⟩
  rw [← C63_pascal_snake U hU s hs t ht, ← C63_pascal_snake U hU s' hs' t (h ▸ ht)]

example : toRustSnakeCase asciiUni ("myAccount2".toUTF8.toList) = toRustSnakeCase asciiUni ("My-account2".toUTF8.toList) := by
  decide +kernel

/-- C63: the converse fails, snake case cannot be recovered from Pascal case:
"XY" is the Pascal case of "x_y" but its snake case is "xy". -/
theorem C63_converse_fails :
    toPascalCase asciiUni ("x_y".toUTF8.toList) = .ok ("XY".toUTF8.toList) ∧
    toRustSnakeCase asciiUni ("XY".toUTF8.toList) = .ok ("xy".toUTF8.toList) ∧
    toRustSnakeCase asciiUni ("x_y".toUTF8.toList) = .ok ("x_y".toUTF8.toList) := by
  decide +kernel

/-! No string makes the functions panic, although rune indices are used as byte indices. -/

theorem runesAux_length : ∀ (f : Nat) (s : Bytes), (runesAux f s).length ≤ s.length
  | 0, s => by simp [runesAux]
  | f + 1, [] => by simp [runesAux]
  | f + 1, b :: rest => by
    rw [runesAux]
    cases hw : runeWidth (b :: rest) with
    | none =>
      have := runesAux_length f rest
      simp only [List.length_cons]; omega
    | some w =>
      have := runesAux_length f ((b :: rest).drop w)
      have hw1 : 1 ≤ w := by
        simp only [runeWidth] at hw
        repeat' split at hw
        all_goals first | (cases hw; omega) | cases hw
      simp only [List.length_cons, List.length_drop] at this ⊢
      omega

theorem runesOf_length (s : Bytes) : (runesOf s).length ≤ s.length := runesAux_length _ s

theorem goSlice_ok {s : Bytes} {lo hi : Nat} (h1 : lo ≤ hi) (h2 : hi ≤ s.length) : ∃ t, goSlice s lo hi = .ok t :=
  ⟨_, by unfold goSlice; rw [if_pos ⟨h1, h2⟩]⟩

theorem heckWord_total (U : Uni) (ww : Bytes → Res Bytes) (hw : ∀ s, ∃ t, ww s = .ok t) (sep word : Bytes) :
    ∀ (rs : List Nat) (i init : Nat) (mode : WordMode) (first : Bool) (out : Bytes), init ≤ i →
    i + rs.length ≤ word.length → ∃ r, heckWord U ww sep word rs i init mode first out = .ok r := by
  have hemit : ∀ lo hi first out, lo ≤ hi → hi ≤ word.length → ∃ o, heckEmit ww sep (goSlice word lo hi) first out = .ok o := by
    intro lo hi first out h1 h2
    obtain ⟨t, ht⟩ := goSlice_ok h1 h2
    obtain ⟨u, hu⟩ := hw t
    exact ⟨_, by simp only [heckEmit, ht, hu]; rfl⟩
  intro rs
  induction rs with
  | nil => intro i init mode first out _ _; exact ⟨_, rfl⟩
  | cons c rest ih =>
    intro i init mode first out h1 h2
    simp only [List.length_cons] at h2
    by_cases hc : c = 95
    · rw [heckWord.eq_def]
      simp only []
      rw [if_pos hc]
      exact ih _ _ _ _ _ (by split <;> omega) (by omega)
    · cases rest with
      | nil =>
        obtain ⟨o, ho⟩ := hemit init word.length first out (by simp at h2; omega) (Nat.le_refl _)
        rw [heckWord, if_neg hc]
        simp only [ho]
        exact ⟨_, rfl⟩
      | cons next rest =>
        simp only [List.length_cons] at h2
        rw [heckWord_two _ _ _ _ _ _ _ _ _ _ _ _ hc]
        generalize (if U.isLower c then WordMode.lowercase else if U.isUpper c then .uppercase else mode) = nm
        split
        · obtain ⟨o, ho⟩ := hemit init (i + 1) first out (by omega) (by omega)
          rw [ho]
          exact ih (i + 1) (i + 1) _ _ _ (by omega) (by simp only [List.length_cons]; omega)
        · split
          · obtain ⟨o, ho⟩ := hemit init i first out h1 (by omega)
            rw [ho]
            exact ih (i + 1) i _ _ _ (by omega) (by simp only [List.length_cons]; omega)
          · exact ih (i + 1) init _ _ _ (by omega) (by simp only [List.length_cons]; omega)

theorem heckWords_total (U : Uni) (ww : Bytes → Res Bytes) (hw : ∀ s, ∃ t, ww s = .ok t) (sep : Bytes) :
    ∀ (ws : List Bytes) (first : Bool) (out : Bytes), ∃ t, heckWords U ww sep ws first out = .ok t
  | [], first, out => ⟨_, rfl⟩
  | w :: ws, first, out => by
    obtain ⟨⟨f, o⟩, h⟩ := heckWord_total U ww hw sep w ((runesOf w).map (·.1)) 0 0 .boundary first out (Nat.le_refl _)
      (by rw [List.length_map, Nat.zero_add]; exact runesOf_length w)
    rw [heckWords, h]
    exact heckWords_total U ww hw sep ws f o

theorem heckCapitalize_total (U : Uni) (s : Bytes) : ∃ t, heckCapitalize U s = .ok t := by
  unfold heckCapitalize
  have := runesOf_length s
  split
  · exact ⟨_, rfl⟩
  · exact ⟨_, rfl⟩
  · rename_i h
    rw [h] at this
    simp only [List.length_cons] at this
    obtain ⟨t, ht⟩ := goSlice_ok (s := s) (lo := 1) (hi := s.length) (by omega) (Nat.le_refl _)
    rw [ht]
    exact ⟨_, rfl⟩

/-- C64: on every byte string, valid UTF-8 or not, and whatever the Unicode tables say, both conversions return a
string. -/
theorem C64_total (U : Uni) (s : Bytes) : (∃ t, toRustSnakeCase U s = .ok t) ∧ ∃ t, toPascalCase U s = .ok t :=
  ⟨heckWords_total U _ (fun _ => ⟨_, rfl⟩) _ _ _ _, heckWords_total U _ (heckCapitalize_total U) _ _ _ _⟩

/-- C65, the part that holds: on ASCII strings both conversions keep all letters and digits. Missing: letters outside
ASCII. -/
theorem C65_ascii_partial (U : Uni) (hU : U.Ascii) (s : Bytes) (hs : AsciiS s) (t u : Bytes)
    (ht : toRustSnakeCase U s = .ok t) (hu : toPascalCase U s = .ok u) :
    (t.filter alnumB) = (s.filter alnumB).map toLowB ∧ u.map toLowB = (s.filter alnumB).map toLowB :=
  ⟨C50_letters U hU s hs t ht, C51_letters U hU s hs u hu⟩

/-- C65 is false of the code: with a letter outside ASCII the letters are not kept. "éA" (é is a lower-case letter of two
bytes) loses its é: the rune index 1 is used as a byte index and cuts é in two, and each half becomes U+FFFD. In Pascal
case "éa" becomes "É", U+FFFD, "a". -/
theorem C65_violated (U : Uni) (hU : U.Ascii) (hl : U.isLetter 0xE9 = true) (hlow : U.isLower 0xE9 = true)
    (hup : U.isUpper 0xE9 = false) (htl : U.toLower 0xFFFD = 0xFFFD) (htu : U.toUpper 0xE9 = 0xC9) :
    toRustSnakeCase U [0xC3, 0xA9, 65] = .ok ([0xEF, 0xBF, 0xBD] ++ [95] ++ [0xEF, 0xBF, 0xBD, 97]) ∧
    toPascalCase U [0xC3, 0xA9, 97] = .ok ([0xC3, 0x89] ++ [0xEF, 0xBF, 0xBD] ++ [97]) := by
  have hA : U.isUpper 65 = true := hU.upper 65 (by decide)
  have hAl : U.isLetter 65 = true := hU.letter 65 (by decide)
  have hAt : U.toLower 65 = 97 := hU.toLow 65 (by decide)
  have ha : U.isUpper 97 = false := hU.upper 97 (by decide)
  have hal : U.isLetter 97 = true := hU.letter 97 (by decide)
  have hat : U.toLower 97 = 97 := hU.toLow 97 (by decide)
  have r1 : runesOf [0xC3, 0xA9, 65] = [(0xE9, [0xC3, 0xA9]), (65, [65])] := by decide +kernel
  have r2 : runesOf [0xC3, 0xA9, 97] = [(0xE9, [0xC3, 0xA9]), (97, [97])] := by decide +kernel
  have r3 : runesOf [0xC3] = [(0xFFFD, [0xC3])] := by decide +kernel
  have r4 : runesOf [0xA9, 65] = [(0xFFFD, [0xA9]), (65, [65])] := by decide +kernel
  have r5 : runesOf [0xA9, 97] = [(0xFFFD, [0xA9]), (97, [97])] := by decide +kernel
  have e1 : utf8Encode 0xFFFD = [0xEF, 0xBF, 0xBD] := by decide +kernel
  have e2 : utf8Encode 97 = [97] := by decide +kernel
  have e3 : utf8Encode 0xC9 = [0xC3, 0x89] := by decide +kernel
  constructor
  · simp [toRustSnakeCase, splitIntoWords, r1, fieldsFunc, hl, hAl, heckWords, heckWord, hlow, hA, goSlice, heckEmit,
      mapRunes, r3, r4, htl, hAt, e1, e2]
  · simp [toPascalCase, splitIntoWords, r2, fieldsFunc, hl, hal, heckWords, heckWord, hlow, hup, ha, goSlice, heckEmit,
      heckCapitalize, r5, htl, htu, hat, e1, e2, e3, heckLowercase]

end Verif.Props
