import Verif.Proofs.Double
import Verif.Proofs.GoInteger
/-! `readFloat` accepts exactly the texts of floating-point numbers. -/
namespace Verif.Props
open Verif.Spec

/-- The digits as `underscoreOK` tells them. -/
def tests (hex : Bool) (b : UInt8) : Bool := isDigit b || hex && (hexValue b).isSome

theorem isDigit_in (b : UInt8) : isDigit b = true ↔ ∃ v, DigitIn 10 b v := by
  unfold isDigit DigitIn
  simp only [Bool.and_eq_true, decide_eq_true_eq, UInt8.le_iff_toNat_le]
  have h1 : (48 : UInt8).toNat = 48 := rfl
  have h2 : (57 : UInt8).toNat = 57 := rfl
  rw [h1, h2]
  constructor
  · intro h; exact ⟨b.toNat - 48, by omega, by omega⟩
  · rintro ⟨v, h⟩; omega

theorem digit_value {b : UInt8} {v : Nat} (h : DigitIn 10 b v) : b.toNat - 48 = v := by
  unfold DigitIn at h; omega

theorem tests_in (hex : Bool) (b : UInt8) : tests hex b = true ↔ ∃ v, DigitIn (if hex then 16 else 10) b v := by
  unfold tests
  cases hex with
  | false => simp [isDigit_in]
  | true =>
    simp only [Bool.true_and, Bool.or_eq_true, isDigit_in, if_true]
    unfold hexValue DigitIn isDigit
    simp only [Bool.and_eq_true, decide_eq_true_eq, UInt8.le_iff_toNat_le]
    have h1 : (48 : UInt8).toNat = 48 := rfl
    have h2 : (57 : UInt8).toNat = 57 := rfl
    have h3 : (97 : UInt8).toNat = 97 := rfl
    have h4 : (102 : UInt8).toNat = 102 := rfl
    have h5 : (65 : UInt8).toNat = 65 := rfl
    have h6 : (70 : UInt8).toNat = 70 := rfl
    rw [h1, h2, h3, h4, h5, h6]
    constructor
    · rintro (⟨v, h⟩ | h)
      · exact ⟨v, by omega, by omega⟩
      · split at h
        · exact ⟨b.toNat - 48, by omega, by omega⟩
        · split at h
          · exact ⟨b.toNat - 87, by omega, by omega⟩
          · split at h
            · exact ⟨b.toNat - 55, by omega, by omega⟩
            · simp at h
    · rintro ⟨v, hv, h⟩
      right
      rcases h with h | h | h
      · rw [if_pos (by omega)]; rfl
      · rw [if_neg (by omega), if_pos (by omega)]; rfl
      · rw [if_neg (by omega), if_neg (by omega), if_pos (by omega)]; rfl

theorem tests_ten {hex : Bool} {b : UInt8} {v : Nat} (h : DigitIn 10 b v) : tests hex b = true := by
  unfold tests; rw [(isDigit_in b).2 ⟨v, h⟩]; rfl

theorem underscores_digit {hex : Bool} {b : UInt8} (h : tests hex b = true) (saw : Saw) (s : Bytes) :
    underscoresFrom hex saw (b :: s) = underscoresFrom hex .digit s := by
  unfold tests at h
  rw [underscoresFrom, if_pos h]

theorem tests_underscore (hex : Bool) : tests hex 95 = false := by cases hex <;> decide

theorem underscores_under (hex : Bool) (s : Bytes) :
    underscoresFrom hex .digit (95 :: s) = underscoresFrom hex .underscore s := by
  rw [underscoresFrom, if_neg (by have := tests_underscore hex; unfold tests at this; simp [this]), if_pos rfl, if_pos rfl]

theorem underscores_bad (hex : Bool) {saw : Saw} (h : saw ≠ .digit) (s : Bytes) :
    underscoresFrom hex saw (95 :: s) = false := by
  rw [underscoresFrom, if_neg (by have := tests_underscore hex; unfold tests at this; simp [this]), if_pos rfl, if_neg h]

theorem underscores_other {hex : Bool} {b : UInt8} (h : tests hex b = false) (hb : b ≠ 95) (saw : Saw) (s : Bytes) :
    underscoresFrom hex saw (b :: s) = (saw != .underscore && underscoresFrom hex .other s) := by
  unfold tests at h
  rw [underscoresFrom, if_neg (by simp [h]), if_neg hb]
  cases saw <;> simp

/-- Without underscores nothing is wrong. -/
theorem underscores_none (hex : Bool) : (s : Bytes) → (saw : Saw) → saw ≠ .underscore → 95 ∉ s → underscoresFrom hex saw s = true
  | [], saw, h, _ => by cases saw <;> simp_all [underscoresFrom]
  | b :: s, saw, h, hn => by
    have hb : b ≠ 95 := fun hb => hn (by simp [hb])
    have hs : 95 ∉ s := fun hs => hn (by simp [hs])
    by_cases ht : tests hex b = true
    · rw [underscores_digit ht]; exact underscores_none hex s _ (by simp) hs
    · rw [underscores_other (by simpa using ht) hb]
      rw [underscores_none hex s _ (by simp) hs]
      cases saw <;> simp_all

/-! A numeral in front. -/

theorem underscores_more {hex : Bool} {base n n' : Nat} {u : Bytes} (hb : ∀ b v, DigitIn base b v → tests hex b = true)
    (h : MoreDigits base n u n') (rest : Bytes) :
    underscoresFrom hex .digit (u ++ rest) = underscoresFrom hex .digit rest := by
  induction h with
  | done n => rfl
  | digit hd _ ih => rw [List.cons_append, underscores_digit (hb _ _ hd), ih]
  | underscore hd _ ih => rw [List.cons_append, List.cons_append, underscores_under, underscores_digit (hb _ _ hd), ih]

theorem underscores_numeral {hex : Bool} {base n : Nat} {u : Bytes} (hb : ∀ b v, DigitIn base b v → tests hex b = true)
    (h : Numeral base u n) (saw : Saw) (rest : Bytes) :
    underscoresFrom hex saw (u ++ rest) = underscoresFrom hex .digit rest := by
  obtain ⟨b, v, t, rfl, hd, hm⟩ := h
  rw [List.cons_append, underscores_digit (hb _ _ hd), underscores_more hb hm]

theorem digitIn_ne {base v : Nat} {b : UInt8} (h : DigitIn base b v) : b ≠ 95 ∧ b ≠ 46 ∧ b ≠ 43 ∧ b ≠ 45 := by
  refine ⟨?_, ?_, ?_, ?_⟩ <;> rintro rfl <;> unfold DigitIn at h <;> simp at h <;> omega

theorem scanFloat_digit {base v : Nat} {b : UInt8} (h : DigitIn base b v) (dot digits : Bool) (m f : Nat) (s : Bytes) :
    scanFloatDigits base dot digits m f (b :: s) =
      scanFloatDigits base dot true (m * base + v) (if dot then f + 1 else f) s := by
  obtain ⟨h1, h2⟩ := (scanDigit_iff _ _ _).2 h
  rw [scanFloatDigits, if_neg (digitIn_ne h).1, if_neg (digitIn_ne h).2.1, h1]
  simp only [if_pos h2]

theorem scanFloat_more {base n n' : Nat} {u : Bytes} (h : MoreDigits base n u n') (dot : Bool) :
    ∀ (f : Nat) (rest : Bytes), scanFloatDigits base dot true n f (u ++ rest) =
      scanFloatDigits base dot true n' (if dot then f + digitCount u else f) rest := by
  induction h with
  | done n => intro f rest; cases dot <;> rfl
  | @digit n m v b s hd _ ih =>
    intro f rest
    rw [List.cons_append, scanFloat_digit hd, ih]
    have : digitCount (b :: s) = digitCount s + 1 := by
      unfold digitCount; rw [List.filter_cons_of_pos (by simp [(digitIn_ne hd).1])]; rfl
    rw [this]
    cases dot <;> simp
    congr 1
    omega
  | @underscore n m v b s hd _ ih =>
    intro f rest
    have : digitCount (95 :: b :: s) = digitCount s + 1 := by
      unfold digitCount
      rw [List.filter_cons_of_neg (by simp), List.filter_cons_of_pos (by simp [(digitIn_ne hd).1])]; rfl
    rw [this, List.cons_append, List.cons_append, scanFloatDigits, if_pos rfl, scanFloat_digit hd, ih]
    cases dot <;> simp
    congr 1
    omega

theorem more_shift {base n n' : Nat} {u : Bytes} (h : MoreDigits base n u n') :
    ∀ a, MoreDigits base (a + n) u (a * base ^ digitCount u + n') := by
  induction h with
  | done n => intro a; simpa [digitCount] using MoreDigits.done (base := base) (a + n)
  | @digit n m v b s hd _ ih =>
    intro a
    have : digitCount (b :: s) = digitCount s + 1 := by
      unfold digitCount; rw [List.filter_cons_of_pos (by simp [(digitIn_ne hd).1])]; rfl
    rw [this]
    refine .digit hd ?_
    have := ih (a * base)
    rw [Nat.pow_succ, Nat.mul_comm (base ^ _), ← Nat.mul_assoc, Nat.add_mul, Nat.add_assoc]
    exact this
  | @underscore n m v b s hd _ ih =>
    intro a
    have : digitCount (95 :: b :: s) = digitCount s + 1 := by
      unfold digitCount
      rw [List.filter_cons_of_neg (by simp), List.filter_cons_of_pos (by simp [(digitIn_ne hd).1])]; rfl
    rw [this]
    refine .underscore hd ?_
    have := ih (a * base)
    rw [Nat.pow_succ, Nat.mul_comm (base ^ _), ← Nat.mul_assoc, Nat.add_mul, Nat.add_assoc]
    exact this

/-- A numeral behind digits of value `a` continues them. -/
theorem numeral_more {base k : Nat} {u : Bytes} (h : Numeral base u k) (a : Nat) :
    MoreDigits base a u (a * base ^ digitCount u + k) := by
  obtain ⟨b, v, t, rfl, hd, hm⟩ := h
  have : digitCount (b :: t) = digitCount t + 1 := by
    unfold digitCount; rw [List.filter_cons_of_pos (by simp [(digitIn_ne hd).1])]; rfl
  rw [this, Nat.pow_succ, Nat.mul_comm (base ^ _), ← Nat.mul_assoc]
  exact .digit hd (more_shift hm (a * base))

theorem scanFloat_numeral {base n : Nat} {u : Bytes} (h : Numeral base u n) (dot digits : Bool) (a f : Nat) (rest : Bytes) :
    scanFloatDigits base dot digits a f (u ++ rest) =
      scanFloatDigits base dot true (a * base ^ digitCount u + n) (if dot then f + digitCount u else f) rest := by
  have h2 := scanFloat_more (numeral_more h a) dot f rest
  rw [← h2]
  obtain ⟨b, v, t, rfl, hd, hm⟩ := h
  rw [List.cons_append, scanFloat_digit hd, scanFloat_digit hd]

/-- The rest is empty or begins with something that is no digit. -/
def Stops (base : Nat) (rest : Bytes) : Prop := ∀ b r, rest = b :: r → b ≠ 95 ∧ b ≠ 46 ∧ ∀ v, ¬ DigitIn base b v

theorem scanFloat_stop {base : Nat} {rest : Bytes} (h : Stops base rest) (dot digits : Bool) (m f : Nat) :
    scanFloatDigits base dot digits m f rest = (m, f, digits, rest) := by
  cases rest with
  | nil => rfl
  | cons b r =>
    obtain ⟨h1, h2, h3⟩ := h b r rfl
    rw [scanFloatDigits, if_neg h1, if_neg h2]
    split
    · rename_i d hd
      rw [if_neg]
      intro hlt
      exact h3 d ((scanDigit_iff _ _ _).1 ⟨hd, hlt⟩)
    · rfl

theorem scanFloat_dot {base : Nat} (digits : Bool) (m f : Nat) (rest : Bytes) :
    scanFloatDigits base false digits m f (46 :: rest) = scanFloatDigits base true digits m f rest := by
  rw [scanFloatDigits, if_neg (by decide), if_pos rfl]; rfl

theorem scanFloat_mantissa {base : Nat} {s : Bytes} {m f : Nat} (h : Mantissa base s m f) {rest : Bytes} (hr : Stops base rest) :
    scanFloatDigits base false false 0 0 (s ++ rest) = (m, f, true, rest) := by
  cases h with
  | whole h => rw [scanFloat_numeral h, scanFloat_stop hr]; simp
  | dot h =>
    rw [List.append_assoc, scanFloat_numeral h, List.singleton_append, scanFloat_dot, scanFloat_stop hr]; simp
  | fraction h h' =>
    rw [List.append_assoc, scanFloat_numeral h, List.cons_append, scanFloat_dot, scanFloat_numeral h', scanFloat_stop hr]; simp
  | point h => rw [List.cons_append, scanFloat_dot, scanFloat_numeral h, scanFloat_stop hr]; simp

theorem tests_46 (hex : Bool) : tests hex 46 = false := by cases hex <;> decide

theorem underscores_mantissa {hex : Bool} {base : Nat} {s : Bytes} {m f : Nat} (hb : ∀ b v, DigitIn base b v → tests hex b = true)
    (h : Mantissa base s m f) {saw : Saw} (hs : saw ≠ .underscore ∨ s.head? ≠ some 46) (rest : Bytes) (hr : 95 ∉ rest.head?)
    (hrest : ∀ saw, saw ≠ .underscore → underscoresFrom hex saw rest = true) : underscoresFrom hex saw (s ++ rest) = true := by
  cases h with
  | whole h => rw [underscores_numeral hb h]; exact hrest _ (by simp)
  | dot h =>
    rw [List.append_assoc, underscores_numeral hb h, List.singleton_append, underscores_other (tests_46 hex) (by decide)]
    simp [hrest]
  | fraction h h' =>
    rw [List.append_assoc, underscores_numeral hb h, List.cons_append, underscores_other (tests_46 hex) (by decide),
      underscores_numeral hb h']
    simp [hrest]
  | point h =>
    rw [List.cons_append, underscores_other (tests_46 hex) (by decide), underscores_numeral hb h, hrest _ (by simp)]
    rcases hs with hs | hs
    · cases saw <;> simp_all
    · simp at hs

/-! The exponent. -/

/-- What the loop makes of an exponent: it is exact below 100000. -/
def Clipped (n e : Nat) : Prop := (n < 100000 → e = n) ∧ (100000 ≤ n → 10000 ≤ e ∧ e < 100000)

theorem more_le {base n n' : Nat} (hbase : 0 < base) {u : Bytes} (h : MoreDigits base n u n') : n ≤ n' := by
  induction h with
  | done => exact Nat.le_refl _
  | digit _ _ ih => exact Nat.le_trans (Nat.le_trans (Nat.le_mul_of_pos_right _ hbase) (Nat.le_add_right _ _)) ih
  | underscore _ _ ih => exact Nat.le_trans (Nat.le_trans (Nat.le_mul_of_pos_right _ hbase) (Nat.le_add_right _ _)) ih

/-- Once the exponent has five digits it stays. -/
theorem scanExp_stuck : {u : Bytes} → {n n' : Nat} → MoreDigits 10 n u n' → (e : Nat) → 10000 ≤ e → scanExpDigits e u = some e
  | _, _, _, .done _, e, _ => rfl
  | _, _, _, .digit hd h, e, he => by
    rw [scanExpDigits, if_pos ((isDigit_in _).2 ⟨_, hd⟩), if_neg (by omega)]
    exact scanExp_stuck h e he
  | _, _, _, .underscore hd h, e, he => by
    rw [scanExpDigits, if_neg (by decide), if_pos rfl, scanExpDigits, if_pos ((isDigit_in _).2 ⟨_, hd⟩), if_neg (by omega)]
    exact scanExp_stuck h e he

theorem scanExp_more {n n' : Nat} {u : Bytes} (h : MoreDigits 10 n u n') (hn : n < 100000) :
    ∃ e, scanExpDigits n u = some e ∧ Clipped n' e := by
  induction h with
  | done n => exact ⟨n, rfl, fun _ => rfl, fun h => by omega⟩
  | @digit n m v b s hd h ih =>
    rw [scanExpDigits, if_pos ((isDigit_in _).2 ⟨_, hd⟩), digit_value hd]
    have hv := hd.1
    by_cases h4 : n < 10000
    · rw [if_pos h4]; exact ih (by omega)
    · rw [if_neg h4]
      refine ⟨n, scanExp_stuck h n (by omega), fun hm => ?_, fun _ => ⟨by omega, hn⟩⟩
      have := more_le (by decide) h
      omega
  | @underscore n m v b s hd h ih =>
    rw [scanExpDigits, if_neg (by decide), if_pos rfl, scanExpDigits, if_pos ((isDigit_in _).2 ⟨_, hd⟩), digit_value hd]
    have hv := hd.1
    by_cases h4 : n < 10000
    · rw [if_pos h4]; exact ih (by omega)
    · rw [if_neg h4]
      refine ⟨n, scanExp_stuck h n (by omega), fun hm => ?_, fun _ => ⟨by omega, hn⟩⟩
      have := more_le (by decide) h
      omega

theorem scanExp_numeral {n : Nat} {u : Bytes} (h : Numeral 10 u n) : ∃ e, scanExp u = some e ∧ Clipped n e := by
  obtain ⟨b, v, t, rfl, hd, hm⟩ := h
  have hdig := (isDigit_in _).2 ⟨_, hd⟩
  rw [scanExp]
  simp only [if_pos hdig]
  rw [scanExpDigits, if_pos hdig, if_pos (by decide), digit_value hd]
  rw [Nat.zero_mul, Nat.zero_add]
  exact scanExp_more hm (by have := hd.1; omega)

/-- A positive or negative exponent as the loop sees it. -/
def ClippedInt (z e : Int) : Prop := ∃ n m : Nat, Clipped n m ∧ ((z = n ∧ e = m) ∨ (z = -n ∧ e = -m))

theorem floatExp_of {c : UInt8} {letters : List UInt8} (hl : letters = [c, c - 32]) {t : Bytes} {z : Int}
    (h : Exponent letters t z) : ∃ e, floatExp c t = some e ∧ ClippedInt z e := by
  subst hl
  have hc : ∀ x, x ∈ [c, c - 32] → (x = c ∨ x + 32 = c) := by
    intro x hx
    simp only [List.mem_cons, List.not_mem_nil, or_false] at hx
    rcases hx with rfl | rfl
    · exact .inl rfl
    · right; simp
  have hs : ∀ {s : Bytes} {n : Nat}, Numeral 10 s n → (∀ r, s ≠ 43 :: r) ∧ ∀ r, s ≠ 45 :: r := by
    rintro s n ⟨b, v, t, rfl, hd, -⟩
    exact ⟨fun r hr => (digitIn_ne hd).2.2.1 (by cases hr; rfl), fun r hr => (digitIn_ne hd).2.2.2 (by cases hr; rfl)⟩
  cases h with
  | @plain x s n hx h =>
    obtain ⟨e, he, hcl⟩ := scanExp_numeral h
    refine ⟨e, ?_, n, e, hcl, .inl ⟨rfl, rfl⟩⟩
    rw [floatExp]
    simp only [if_pos (hc _ hx)]
    · rw [he]; rfl
    · exact fun r hr => (hs h).1 r hr
    · exact fun r hr => (hs h).2 r hr
  | @plus x s n hx h =>
    obtain ⟨e, he, hcl⟩ := scanExp_numeral h
    refine ⟨e, ?_, n, e, hcl, .inl ⟨rfl, rfl⟩⟩
    rw [floatExp]
    simp only [if_pos (hc _ hx)]
    rw [he]; rfl
  | @minus x s n hx h =>
    obtain ⟨e, he, hcl⟩ := scanExp_numeral h
    refine ⟨-e, ?_, n, e, hcl, .inr ⟨rfl, rfl⟩⟩
    rw [floatExp]
    simp only [if_pos (hc _ hx)]
    rw [he]; rfl

/-! From an accepted text to its parts. -/

/-- The longest run of digits and underscores. -/
theorem run_split (base : Nat) : (s : Bytes) → ∃ u rest, s = u ++ rest ∧ (∀ b ∈ u, b = 95 ∨ ∃ v, DigitIn base b v) ∧
    ∀ b r, rest = b :: r → b ≠ 95 ∧ ∀ v, ¬ DigitIn base b v
  | [] => ⟨[], [], rfl, by simp, by simp⟩
  | b :: s => by
    by_cases hb : b = 95 ∨ ∃ v, DigitIn base b v
    · obtain ⟨u, rest, rfl, h1, h2⟩ := run_split base s
      refine ⟨b :: u, rest, rfl, ?_, h2⟩
      intro x hx
      rcases List.mem_cons.1 hx with rfl | hx
      · exact hb
      · exact h1 x hx
    · refine ⟨[], b :: s, rfl, by simp, ?_⟩
      rintro x r hx
      cases hx
      exact ⟨fun h => hb (.inl h), fun v h => hb (.inr ⟨v, h⟩)⟩

theorem more_of_ok {hex : Bool} {base : Nat} (hb : ∀ b v, DigitIn base b v → tests hex b = true) {rest : Bytes}
    (hr : ∀ b r, rest = b :: r → b ≠ 95 ∧ tests hex b = false) :
    (u : Bytes) → (∀ b ∈ u, b = 95 ∨ ∃ v, DigitIn base b v) → underscoresFrom hex .digit (u ++ rest) = true →
    ∀ n, ∃ n', MoreDigits base n u n'
  | [], _, _, n => ⟨n, .done n⟩
  | [95], _, ho, n => by
    rw [List.singleton_append, underscores_under] at ho
    cases rest with
    | nil => simp [underscoresFrom] at ho
    | cons b r =>
      obtain ⟨h1, h2⟩ := hr b r rfl
      rw [underscores_other h2 h1] at ho
      simp at ho
  | b :: u, hu, ho, n => by
    rcases hu b (by simp) with rfl | ⟨v, hd⟩
    · rw [List.cons_append, underscores_under] at ho
      cases u with
      | nil =>
        cases rest with
        | nil => simp [underscoresFrom] at ho
        | cons b r =>
          obtain ⟨h1, h2⟩ := hr b r rfl
          rw [List.nil_append, underscores_other h2 h1] at ho
          simp at ho
      | cons c u =>
        rcases hu c (by simp) with rfl | ⟨w, hw⟩
        · rw [List.cons_append, underscores_bad _ (by simp)] at ho
          simp at ho
        · rw [List.cons_append, underscores_digit (hb _ _ hw)] at ho
          obtain ⟨n', h⟩ := more_of_ok hb hr u (fun x hx => hu x (by simp [hx])) ho (n * base + w)
          exact ⟨n', .underscore hw h⟩
    · rw [List.cons_append, underscores_digit (hb _ _ hd)] at ho
      obtain ⟨n', h⟩ := more_of_ok hb hr u (fun x hx => hu x (by simp [hx])) ho (n * base + v)
      exact ⟨n', .digit hd h⟩

theorem numeral_of_ok {hex : Bool} {base : Nat} (hb : ∀ b v, DigitIn base b v → tests hex b = true) {rest : Bytes}
    (hr : ∀ b r, rest = b :: r → b ≠ 95 ∧ tests hex b = false) {u : Bytes} (hu : ∀ b ∈ u, b = 95 ∨ ∃ v, DigitIn base b v)
    {saw : Saw} (hs : saw ≠ .digit) (ho : underscoresFrom hex saw (u ++ rest) = true) : u = [] ∨ ∃ n, Numeral base u n := by
  cases u with
  | nil => exact .inl rfl
  | cons b u =>
    right
    rcases hu b (by simp) with rfl | ⟨v, hd⟩
    · rw [List.cons_append, underscores_bad _ hs] at ho; simp at ho
    · rw [List.cons_append, underscores_digit (hb _ _ hd)] at ho
      obtain ⟨n', h⟩ := more_of_ok hb hr u (fun x hx => hu x (by simp [hx])) ho v
      exact ⟨n', b, v, u, rfl, hd, h⟩

theorem scanFloat_stop_true {base : Nat} {rest : Bytes} (h : ∀ b r, rest = b :: r → b ≠ 95 ∧ ∀ v, ¬ DigitIn base b v)
    (digits : Bool) (m f : Nat) : scanFloatDigits base true digits m f rest = (m, f, digits, rest) := by
  by_cases h46 : rest.head? = some 46
  · cases rest with
    | nil => rfl
    | cons b r =>
      simp at h46
      subst h46
      rw [scanFloatDigits, if_neg (by decide), if_pos rfl, if_pos rfl]
  · refine scanFloat_stop ?_ true digits m f
    rintro b r rfl
    exact ⟨(h b r rfl).1, fun hb => h46 (by simp [hb]), (h b r rfl).2⟩

theorem base_tests {hex : Bool} {base : Nat} (hbase : base = if hex then 16 else 10) :
    (∀ b v, DigitIn base b v → tests hex b = true) ∧ ∀ b, (∀ v, ¬ DigitIn base b v) → tests hex b = false := by
  refine ⟨fun b v h => (tests_in hex b).2 ⟨v, hbase ▸ h⟩, ?_⟩
  intro b h
  cases hc : tests hex b with
  | false => rfl
  | true => obtain ⟨v, hv⟩ := (tests_in hex b).1 hc; exact absurd (hbase ▸ hv) (h v)

/-- The run at the front of a text is nothing or a numeral. -/
theorem run_of_ok {hex : Bool} {base : Nat} (hbase : base = if hex then 16 else 10) {t : Bytes} {saw : Saw}
    (hs : saw ≠ .digit) (ho : underscoresFrom hex saw t = true) :
    ∃ w q, t = w ++ q ∧ (∀ b r, q = b :: r → b ≠ 95 ∧ ∀ v, ¬ DigitIn base b v) ∧
      (w = [] ∧ underscoresFrom hex saw q = true ∨ (∃ k, Numeral base w k) ∧ underscoresFrom hex .digit q = true) := by
  obtain ⟨hb, hnb⟩ := base_tests hbase
  obtain ⟨w, q, rfl, hw, hq⟩ := run_split base t
  refine ⟨w, q, rfl, hq, ?_⟩
  rcases numeral_of_ok hb (fun b r h => ⟨(hq b r h).1, hnb _ (hq b r h).2⟩) hw hs ho with rfl | ⟨k, hk⟩
  · exact .inl ⟨rfl, ho⟩
  · rw [underscores_numeral hb hk] at ho
    exact .inr ⟨⟨k, hk⟩, ho⟩

/-- A scan that found a digit stopped behind a mantissa. -/
theorem mantissa_of_scan {hex : Bool} {base : Nat} (hbase : base = if hex then 16 else 10) {s : Bytes} {saw : Saw}
    (hs : saw ≠ .digit) (ho : underscoresFrom hex saw s = true) {m f : Nat} {rest : Bytes}
    (h : scanFloatDigits base false false 0 0 s = (m, f, true, rest)) :
    ∃ u, s = u ++ rest ∧ Mantissa base u m f ∧ ∃ saw, underscoresFrom hex saw rest = true := by
  obtain ⟨u, r, rfl, hr, hu⟩ := run_of_ok hbase hs ho
  by_cases h46 : ∃ t, r = 46 :: t
  · obtain ⟨t, rfl⟩ := h46
    have ht : underscoresFrom hex .other t = true := by
      rcases hu with ⟨-, ho⟩ | ⟨-, ho⟩
      · rw [underscores_other (tests_46 hex) (by decide)] at ho
        simp only [Bool.and_eq_true] at ho
        exact ho.2
      · rw [underscores_other (tests_46 hex) (by decide)] at ho
        simp only [Bool.and_eq_true] at ho
        exact ho.2
    obtain ⟨w, q, rfl, hq, hw⟩ := run_of_ok hbase (by simp) ht
    rcases hu with ⟨rfl, -⟩ | ⟨⟨n, hn⟩, -⟩
    · rw [List.nil_append, scanFloat_dot] at h
      rcases hw with ⟨rfl, hw⟩ | ⟨⟨k, hk⟩, hw⟩
      · rw [List.nil_append, scanFloat_stop_true hq] at h
        simp at h
      · rw [scanFloat_numeral hk, scanFloat_stop_true hq] at h
        simp only [Prod.mk.injEq, true_and] at h
        obtain ⟨rfl, rfl, rfl⟩ := h
        refine ⟨46 :: w, rfl, ?_, _, hw⟩
        simpa using Mantissa.point hk
    · rw [scanFloat_numeral hn, scanFloat_dot] at h
      rcases hw with ⟨rfl, hw⟩ | ⟨⟨k, hk⟩, hw⟩
      · rw [List.nil_append, scanFloat_stop_true hq] at h
        simp only [Prod.mk.injEq, true_and] at h
        obtain ⟨rfl, rfl, rfl⟩ := h
        refine ⟨u ++ [46], by simp, ?_, _, hw⟩
        simpa using Mantissa.dot hn
      · rw [scanFloat_numeral hk, scanFloat_stop_true hq] at h
        simp only [Prod.mk.injEq, true_and] at h
        obtain ⟨rfl, rfl, rfl⟩ := h
        refine ⟨u ++ 46 :: w, by simp, ?_, _, hw⟩
        simpa using Mantissa.fraction hn hk
  · have hst : Stops base r := by
      rintro b t rfl
      exact ⟨(hr b t rfl).1, fun hb => h46 ⟨t, by rw [hb]⟩, (hr b t rfl).2⟩
    rcases hu with ⟨rfl, -⟩ | ⟨⟨n, hn⟩, hu⟩
    · rw [List.nil_append, scanFloat_stop hst] at h
      simp at h
    · rw [scanFloat_numeral hn, scanFloat_stop hst] at h
      simp only [Prod.mk.injEq, true_and] at h
      obtain ⟨rfl, rfl, rfl⟩ := h
      refine ⟨u, rfl, ?_, _, hu⟩
      simpa using Mantissa.whole hn

theorem scanExp_run : (s : Bytes) → (e e' : Nat) → scanExpDigits e s = some e' → ∀ b ∈ s, b = 95 ∨ ∃ v, DigitIn 10 b v
  | [], _, _, _ => by simp
  | b :: s, e, e', h => by
    rw [scanExpDigits] at h
    intro x hx
    split at h
    · rename_i hd
      rcases List.mem_cons.1 hx with rfl | hx
      · exact .inr ((isDigit_in _).1 hd)
      · exact scanExp_run s _ _ h x hx
    · split at h
      · rename_i hd
        rcases List.mem_cons.1 hx with rfl | hx
        · exact .inl hd
        · exact scanExp_run s _ _ h x hx
      · simp at h

theorem numeral_of_scanExp {hex : Bool} {s : Bytes} {e : Nat} (h : scanExp s = some e) {saw : Saw}
    (ho : underscoresFrom hex saw s = true) : ∃ n, Numeral 10 s n ∧ Clipped n e := by
  cases s with
  | nil => simp [scanExp] at h
  | cons b r =>
    rw [scanExp] at h
    split at h
    · rename_i hd
      have hd' := (isDigit_in _).1 hd
      have ho' : underscoresFrom hex .other ((b :: r) ++ []) = true := by
        rw [List.append_nil]
        obtain ⟨v, hv⟩ := hd'
        rw [underscores_digit (tests_ten hv)] at ho ⊢
        exact ho
      rcases numeral_of_ok (hex := hex) (base := 10) (fun b v h => tests_ten h) (rest := []) (by simp)
        (scanExp_run _ _ _ h) (saw := .other) (by simp) ho' with h0 | ⟨n, hn⟩
      · simp at h0
      · refine ⟨n, hn, ?_⟩
        obtain ⟨e', he', hc⟩ := scanExp_numeral hn
        rw [scanExp] at he'
        simp only [if_pos hd] at he'
        rw [h] at he'
        cases he'
        exact hc
    · simp at h

theorem exponent_of {hex : Bool} {c : UInt8} {letters : List UInt8} (hl : letters = [c, c - 32])
    (hc : tests hex c = false ∧ tests hex (c - 32) = false ∧ c ≠ 95 ∧ c - 32 ≠ 95) {t : Bytes} {e : Int}
    (h : floatExp c t = some e) {saw : Saw} (ho : underscoresFrom hex saw t = true) :
    ∃ z, Exponent letters t z ∧ ClippedInt z e := by
  subst hl
  cases t with
  | nil => simp [floatExp] at h
  | cons b r =>
    rw [floatExp.eq_def] at h
    simp only at h
    split at h
    · rename_i hb
      have hb' : b = c ∨ b = c - 32 := by
        rcases hb with rfl | rfl
        · exact .inl rfl
        · right; simp
      have hmem : b ∈ [c, c - 32] := by simpa using hb'
      have hor : underscoresFrom hex .other r = true := by
        have h1 : tests hex b = false := hb'.elim (fun h => h ▸ hc.1) (fun h => h ▸ hc.2.1)
        have h2 : b ≠ 95 := hb'.elim (fun h => h ▸ hc.2.2.1) (fun h => h ▸ hc.2.2.2)
        rw [underscores_other h1 h2] at ho
        simp only [Bool.and_eq_true] at ho
        exact ho.2
      split at h
      · rename_i r'
        rw [underscores_other (by cases hex <;> decide) (by decide)] at hor
        simp only [Bool.and_eq_true] at hor
        simp only [Option.map_eq_some_iff] at h
        obtain ⟨a, ha, rfl⟩ := h
        obtain ⟨n, hn, hcl⟩ := numeral_of_scanExp ha hor.2
        exact ⟨n, .plus hmem hn, n, a, hcl, .inl ⟨rfl, rfl⟩⟩
      · rename_i r'
        rw [underscores_other (by cases hex <;> decide) (by decide)] at hor
        simp only [Bool.and_eq_true] at hor
        simp only [Option.map_eq_some_iff] at h
        obtain ⟨a, ha, rfl⟩ := h
        obtain ⟨n, hn, hcl⟩ := numeral_of_scanExp ha hor.2
        exact ⟨-n, .minus hmem hn, n, a, hcl, .inr ⟨rfl, rfl⟩⟩
      · simp only [Option.map_eq_some_iff] at h
        obtain ⟨a, ha, rfl⟩ := h
        obtain ⟨n, hn, hcl⟩ := numeral_of_scanExp ha hor
        exact ⟨n, .plain hmem hn, n, a, hcl, .inl ⟨rfl, rfl⟩⟩
    · simp at h

/-- In front of the exponent a mantissa stops. -/
theorem exponent_head {letters : List UInt8} {t : Bytes} {z : Int} (h : Exponent letters t z) : ∃ c r, t = c :: r ∧ c ∈ letters := by
  cases h with
  | plain h _ => exact ⟨_, _, rfl, h⟩
  | plus h _ => exact ⟨_, _, rfl, h⟩
  | minus h _ => exact ⟨_, _, rfl, h⟩

theorem exponent_ok {hex : Bool} {letters : List UInt8} (hl : ∀ c ∈ letters, tests hex c = false ∧ c ≠ 95) {t : Bytes} {z : Int}
    (h : Exponent letters t z) {saw : Saw} (hs : saw ≠ .underscore) : underscoresFrom hex saw t = true := by
  have num : ∀ {u : Bytes} {n : Nat}, Numeral 10 u n → underscoresFrom hex .other u = true := by
    intro u n hn
    rw [← List.append_nil u, underscores_numeral (fun b v h => tests_ten h) hn]
    rfl
  cases h with
  | plain hc hn =>
    rw [underscores_other (hl _ hc).1 (hl _ hc).2, num hn]
    cases saw <;> simp_all
  | plus hc hn =>
    rw [underscores_other (hl _ hc).1 (hl _ hc).2, underscores_other (by cases hex <;> decide) (by decide), num hn]
    cases saw <;> simp_all
  | minus hc hn =>
    rw [underscores_other (hl _ hc).1 (hl _ hc).2, underscores_other (by cases hex <;> decide) (by decide), num hn]
    cases saw <;> simp_all

/-! The whole text. -/

/-- The exponent the loop has seen, applied to the digits behind the point. -/
inductive Clip (s : Bytes) : Int → Int → Prop
  | same {z : Int} : Clip s z z
  | exp {f : Nat} {u t : Bytes} {z e : Int} : s = u ++ t → Exponent [101, 69, 112, 80] t z → f ≤ 4 * s.length → ClippedInt z e →
      Clip s (z - f) (e - f)

theorem exponent_mono {l l' : List UInt8} (h : ∀ c ∈ l, c ∈ l') {t : Bytes} {z : Int} (ht : Exponent l t z) : Exponent l' t z := by
  cases ht with
  | plain hc hn => exact .plain (h _ hc) hn
  | plus hc hn => exact .plus (h _ hc) hn
  | minus hc hn => exact .minus (h _ hc) hn

theorem digitCount_le (s : Bytes) : digitCount s ≤ s.length := List.length_filter_le _ _

theorem mantissa_frac {base : Nat} {s : Bytes} {m f : Nat} (h : Mantissa base s m f) : f ≤ s.length := by
  cases h with
  | whole => omega
  | dot => omega
  | @fraction s t => have := digitCount_le t; simp; omega
  | @point t => have := digitCount_le t; simp; omega

theorem letters_stop {base : Nat} {letters : List UInt8} (hl : ∀ c ∈ letters, c ≠ 95 ∧ c ≠ 46 ∧ ∀ v, ¬ DigitIn base c v)
    {t : Bytes} {z : Int} (h : Exponent letters t z) : Stops base t := by
  obtain ⟨c, r, rfl, hc⟩ := exponent_head h
  intro b r' hb
  cases hb
  exact hl c hc

theorem stops_e : ∀ c ∈ ([101, 69] : List UInt8), c ≠ 95 ∧ c ≠ 46 ∧ ∀ v, ¬ DigitIn 10 c v := by
  intro c hc
  simp only [List.mem_cons, List.not_mem_nil, or_false] at hc
  rcases hc with rfl | rfl <;> refine ⟨by decide, by decide, ?_⟩ <;> intro v h <;> unfold DigitIn at h <;> simp at h <;> omega

theorem stops_p : ∀ c ∈ ([112, 80] : List UInt8), c ≠ 95 ∧ c ≠ 46 ∧ ∀ v, ¬ DigitIn 16 c v := by
  intro c hc
  simp only [List.mem_cons, List.not_mem_nil, or_false] at hc
  rcases hc with rfl | rfl <;> refine ⟨by decide, by decide, ?_⟩ <;> intro v h <;> unfold DigitIn at h <;> simp at h <;> omega

theorem mantissa_ne {base : Nat} {s : Bytes} {m f : Nat} (h : Mantissa base s m f) :
    ∃ b r, s = b :: r ∧ (b = 46 ∨ ∃ v, DigitIn base b v) := by
  cases h with
  | whole h => obtain ⟨b, v, t, rfl, hd, -⟩ := h; exact ⟨b, _, rfl, .inr ⟨v, hd⟩⟩
  | dot h => obtain ⟨b, v, t, rfl, hd, -⟩ := h; exact ⟨b, _, rfl, .inr ⟨v, hd⟩⟩
  | fraction h _ => obtain ⟨b, v, t, rfl, hd, -⟩ := h; exact ⟨b, _, rfl, .inr ⟨v, hd⟩⟩
  | point h => exact ⟨46, _, rfl, .inl rfl⟩

/-- No mantissa in base 10 has a letter in second place. -/
theorem mantissa_second {s : Bytes} {m f : Nat} (h : Mantissa 10 s m f) {rest : Bytes} (hr : ∀ b r, rest = b :: r → b = 101 ∨ b = 69)
    {a c : UInt8} {r : Bytes} (hs : s ++ rest = a :: c :: r) : c = 101 ∨ c = 69 ∨ c = 46 ∨ c = 95 ∨ ∃ v, DigitIn 10 c v := by
  have more : ∀ {n n' : Nat} {t x : Bytes}, MoreDigits 10 n t n' → (∀ b r, x = b :: r → b = 101 ∨ b = 69 ∨ b = 46) → t ++ x = c :: r →
      c = 101 ∨ c = 69 ∨ c = 46 ∨ c = 95 ∨ ∃ v, DigitIn 10 c v := by
    intro n n' t x hm hx he
    cases hm with
    | done => rcases hx c r he with h | h | h <;> simp [h]
    | digit hd _ => cases he; exact .inr (.inr (.inr (.inr ⟨_, hd⟩)))
    | underscore hd _ => cases he; simp
  have hr3 : ∀ b r, rest = b :: r → b = 101 ∨ b = 69 ∨ b = 46 := fun b r h => (hr b r h).elim .inl (fun h => .inr (.inl h))
  cases h with
  | whole h =>
    obtain ⟨b, v, t, rfl, hd, hm⟩ := h
    rw [List.cons_append] at hs
    injection hs with _ hs
    exact more hm hr3 hs
  | dot h =>
    obtain ⟨b, v, t, rfl, hd, hm⟩ := h
    rw [List.append_assoc, List.cons_append] at hs
    injection hs with _ hs
    exact more hm (by rintro b r h; cases h; simp) hs
  | fraction h _ =>
    obtain ⟨b, v, t, rfl, hd, hm⟩ := h
    rw [List.append_assoc, List.cons_append] at hs
    injection hs with _ hs
    exact more hm (by rintro b r h; cases h; simp) hs
  | point h =>
    obtain ⟨b, v, t, rfl, hd, hm⟩ := h
    simp only [List.cons_append, List.cons.injEq] at hs
    obtain ⟨-, rfl, -⟩ := hs
    exact .inr (.inr (.inr (.inr ⟨v, hd⟩)))

theorem ten_not_prefix {c : UInt8} (h : c = 101 ∨ c = 69 ∨ c = 46 ∨ c = 95 ∨ ∃ v, DigitIn 10 c v) :
    ¬ (c = 120 ∨ c = 88) ∧ ¬ (c = 98 ∨ c = 66 ∨ c = 111 ∨ c = 79) := by
  rcases h with rfl | rfl | rfl | rfl | ⟨v, h⟩
  · decide
  · decide
  · decide
  · decide
  · unfold DigitIn at h
    refine ⟨?_, ?_⟩
    · rintro (rfl | rfl) <;> simp at h <;> omega
    · rintro (rfl | rfl | rfl | rfl) <;> simp at h <;> omega

/-- `readFloat` in two cases. -/
theorem floatPrefix_ten {s : Bytes} (h : ∀ a c r, s = a :: c :: r → ¬ (c = 120 ∨ c = 88)) : floatPrefix s = (false, s) := by
  unfold floatPrefix
  split
  · rw [if_neg (h _ _ _ rfl)]
  · rfl

theorem readFloat_ten {s : Bytes} (h : floatPrefix s = (false, s)) {m f : Nat} {d : Bool} {rest : Bytes}
    (hscan : scanFloatDigits 10 false false 0 0 s = (m, f, d, rest)) :
    readFloat s =
      if d then
        match (if rest = [] then some 0 else floatExp 101 rest) with
        | some e => if s.contains 95 && !underscoreOK s then none else some (m, 10, e - f)
        | none => none
      else none := by
  unfold readFloat
  rw [h]
  simp only [Bool.false_eq_true, if_false, hscan]
  rfl

theorem readFloat_hex {c b : UInt8} {r : Bytes} (h : c = 120 ∨ c = 88) {m f : Nat} {d : Bool} {rest : Bytes}
    (hscan : scanFloatDigits 16 false false 0 0 (b :: r) = (m, f, d, rest)) :
    readFloat (48 :: c :: b :: r) =
      if d then
        match floatExp 112 rest with
        | some e => if (48 :: c :: b :: r).contains 95 && !underscoreOK (48 :: c :: b :: r) then none else some (m, 2, e - 4 * f)
        | none => none
      else none := by
  have : floatPrefix (48 :: c :: b :: r) = (true, b :: r) := by
    unfold floatPrefix
    simp only [if_pos h]
  unfold readFloat
  rw [this]
  simp only [if_true, hscan]
  rfl

theorem underscoreOK_ten {s : Bytes} (h : ∀ a c r, s = a :: c :: r → ¬ (c = 120 ∨ c = 88) ∧ ¬ (c = 98 ∨ c = 66 ∨ c = 111 ∨ c = 79)) :
    underscoreOK s = underscoresFrom false .other s := by
  unfold underscoreOK
  split
  · obtain ⟨h1, h2⟩ := h _ _ _ rfl
    rw [if_neg h2, if_neg h1]
  · rfl

theorem underscoreOK_hex {c : UInt8} {r : Bytes} (h : c = 120 ∨ c = 88) :
    underscoreOK (48 :: c :: r) = underscoresFrom true .digit r := by
  unfold underscoreOK
  simp only
  rw [if_neg (by rcases h with rfl | rfl <;> decide), if_pos h]

/-- The underscores of a text that is let through are in place. -/
theorem ok_of_pass {s : Bytes} (h : ¬ (s.contains 95 && !underscoreOK s) = true) : underscoreOK s = true := by
  by_cases hc : s.contains 95 = true
  · simp only [hc, Bool.true_and, Bool.not_eq_true', Bool.not_eq_false] at h
    exact h
  · have hn : 95 ∉ s := by simpa using hc
    unfold underscoreOK
    split
    · split
      · exact underscores_none _ _ _ (by simp) (fun h => hn (by simp [h]))
      · split
        · exact underscores_none _ _ _ (by simp) (fun h => hn (by simp [h]))
        · exact underscores_none _ _ _ (by simp) hn
    · exact underscores_none _ _ _ (by simp) hn

theorem readFloat_of {s : Bytes} {m b : Nat} {z : Int} (h : FloatText s m b z) :
    ∃ e, readFloat s = some (m, b, e) ∧ Clip s z e := by
  have t10 : ∀ b v, DigitIn 10 b v → tests false b = true := (base_tests (hex := false) rfl).1
  have t16 : ∀ b v, DigitIn 16 b v → tests true b = true := (base_tests (hex := true) rfl).1
  have c10 : ∀ c ∈ ([101, 69] : List UInt8), tests false c = false ∧ c ≠ 95 := by decide
  have c16 : ∀ c ∈ ([112, 80] : List UInt8), tests true c = false ∧ c ≠ 95 := by decide
  cases h with
  | @decimal _ _ f h =>
    have h2 : ∀ a c r, s = a :: c :: r → _ := fun a c r hs => ten_not_prefix (mantissa_second h (rest := []) (by simp) (by simpa using hs))
    have hscan := scanFloat_mantissa h (rest := []) (by intro b r h; simp at h)
    rw [List.append_nil] at hscan
    have hok := underscores_mantissa t10 h (saw := .other) (.inl (by simp)) [] (by simp) (fun saw hs => by cases saw <;> simp_all [underscoresFrom])
    rw [List.append_nil] at hok
    refine ⟨-f, ?_, .same⟩
    rw [readFloat_ten (floatPrefix_ten fun a c r hs => (h2 a c r hs).1) hscan]
    simp only [if_true, underscoreOK_ten h2, hok]
    simp
  | @decimalExp s t _ f e h ht =>
    have hhead : ∀ b r, t = b :: r → b = 101 ∨ b = 69 := by
      intro b r hb
      obtain ⟨c, r', hc, hm⟩ := exponent_head ht
      rw [hb] at hc
      cases hc
      simpa using hm
    have h2 : ∀ a c r, s ++ t = a :: c :: r → _ := fun a c r hs => ten_not_prefix (mantissa_second h hhead hs)
    have hscan := scanFloat_mantissa h (letters_stop stops_e ht)
    have hok := underscores_mantissa t10 h (saw := .other) (.inl (by simp)) t
      (by obtain ⟨c, r', rfl, hm⟩ := exponent_head ht; simp; rintro rfl; simp at hm) (fun saw hs => exponent_ok c10 ht hs)
    obtain ⟨x, hx, hcl⟩ := floatExp_of (c := 101) (by decide) ht
    refine ⟨x - f, ?_, .exp rfl (exponent_mono (by decide) ht) (by have := mantissa_frac h; simp; omega) hcl⟩
    rw [readFloat_ten (floatPrefix_ten fun a c r hs => (h2 a c r hs).1) hscan]
    simp only [if_true, underscoreOK_ten h2, hok, hx]
    rw [if_neg (by obtain ⟨c, r', rfl, hm⟩ := exponent_head ht; simp)]
    simp
  | @hex s t _ f e c hc h ht =>
    have hscan := scanFloat_mantissa h (letters_stop stops_p ht)
    have hok := underscores_mantissa t16 h (saw := .digit) (.inl (by simp)) t
      (by obtain ⟨c, r', rfl, hm⟩ := exponent_head ht; simp; rintro rfl; simp at hm) (fun saw hs => exponent_ok c16 ht hs)
    obtain ⟨x, hx, hcl⟩ := floatExp_of (c := 112) (by decide) ht
    have hf := mantissa_frac h
    refine ⟨x - 4 * f, ?_, ?_⟩
    · obtain ⟨b, r, rfl, -⟩ := mantissa_ne h
      rw [List.cons_append] at hscan hok ⊢
      rw [readFloat_hex hc hscan, underscoreOK_hex hc, hok]
      simp [hx]
    · have := Clip.exp (s := 48 :: c :: (s ++ t)) (f := 4 * f) (u := 48 :: c :: s) (t := t) (by simp)
        (exponent_mono (by decide) ht) (by simp; omega) hcl
      simpa using this
  | @hex_ s t _ f e c hc h hs ht =>
    have hscan := scanFloat_mantissa h (letters_stop stops_p ht)
    have hok := underscores_mantissa t16 h (saw := .underscore) (.inr hs) t
      (by obtain ⟨c, r', rfl, hm⟩ := exponent_head ht; simp; rintro rfl; simp at hm) (fun saw hs => exponent_ok c16 ht hs)
    obtain ⟨x, hx, hcl⟩ := floatExp_of (c := 112) (by decide) ht
    refine ⟨x - 4 * f, ?_, ?_⟩
    · have hscan' : scanFloatDigits 16 false false 0 0 (95 :: (s ++ t)) = (m, f, true, t) := by
        rw [scanFloatDigits, if_pos rfl]; exact hscan
      rw [readFloat_hex hc hscan', underscoreOK_hex hc, underscores_under, hok]
      simp [hx]
    · have hf := mantissa_frac h
      have := Clip.exp (s := 48 :: c :: 95 :: (s ++ t)) (f := 4 * f) (u := 48 :: c :: 95 :: s) (t := t) (by simp)
        (exponent_mono (by decide) ht) (by simp; omega) hcl
      simpa using this

/-- Behind `0x`, `0b` or `0o` a scan in base 10 stops at the letter, which begins no exponent. -/
theorem scan_letter {c : UInt8} {r : Bytes} (hc : c = 120 ∨ c = 88 ∨ c = 98 ∨ c = 66 ∨ c = 111 ∨ c = 79) :
    scanFloatDigits 10 false false 0 0 (48 :: c :: r) = (0, 0, true, c :: r) ∧ floatExp 101 (c :: r) = none := by
  have h0 : DigitIn 10 48 0 := by unfold DigitIn; simp
  refine ⟨?_, ?_⟩
  · rw [scanFloat_digit h0, scanFloat_stop]
    · simp
    · intro b t hb
      cases hb
      refine ⟨?_, ?_, ?_⟩
      · rintro rfl; simp at hc
      · rintro rfl; simp at hc
      · intro v hv
        unfold DigitIn at hv
        rcases hc with rfl | rfl | rfl | rfl | rfl | rfl <;> simp at hv <;> omega
  · rw [floatExp.eq_def]
    simp only
    rw [if_neg]
    rcases hc with rfl | rfl | rfl | rfl | rfl | rfl <;> decide

theorem floatText_ten {s : Bytes} (hp : floatPrefix s = (false, s)) {m b : Nat} {e : Int} (h : readFloat s = some (m, b, e)) :
    ∃ z, FloatText s m b z ∧ Clip s z e := by
  rcases hscan : scanFloatDigits 10 false false 0 0 s with ⟨m', f, d, rest⟩
  rw [readFloat_ten hp hscan] at h
  split at h
  · rename_i hd
    subst hd
    split at h
    · rename_i x hx
      split at h
      · simp at h
      · rename_i hpass
        simp only [Option.some.injEq, Prod.mk.injEq] at h
        obtain ⟨rfl, rfl, rfl⟩ := h
        have hok := ok_of_pass hpass
        have hl : ∀ c r, s = 48 :: c :: r → ¬ (c = 120 ∨ c = 88 ∨ c = 98 ∨ c = 66 ∨ c = 111 ∨ c = 79) := by
          rintro c r rfl hc
          rw [(scan_letter hc).1] at hscan
          simp only [Prod.mk.injEq] at hscan
          rw [← hscan.2.2.2, if_neg (by simp), (scan_letter hc).2] at hx
          simp at hx
        have hok' : underscoresFrom false .other s = true := by
          unfold underscoreOK at hok
          split at hok
          · rename_i c r
            have := hl c r rfl
            rw [if_neg (by rintro (h | h | h | h) <;> exact this (by simp [h])), if_neg (by rintro (h | h) <;> exact this (by simp [h]))] at hok
            exact hok
          · exact hok
        obtain ⟨u, rfl, hm, saw, hsaw⟩ := mantissa_of_scan (hex := false) rfl (saw := .other) (by simp) hok' hscan
        split at hx
        · rename_i hr
          subst hr
          simp only [Option.some.injEq] at hx
          subst hx
          refine ⟨-f, by simpa using FloatText.decimal hm, ?_⟩
          simpa using Clip.same (z := -(f : Int))
        · obtain ⟨z, hz, hc⟩ := exponent_of (hex := false) (c := 101) (letters := [101, 69]) (by decide) (by decide) hx hsaw
          exact ⟨z - f, .decimalExp hm hz, .exp rfl (exponent_mono (by decide) hz) (by have := mantissa_frac hm; simp; omega) hc⟩
    · simp at h
  · simp at h

theorem floatText_hex {c x : UInt8} {r : Bytes} (hc : c = 120 ∨ c = 88) {m b : Nat} {e : Int}
    (h : readFloat (48 :: c :: x :: r) = some (m, b, e)) : ∃ z, FloatText (48 :: c :: x :: r) m b z ∧ Clip (48 :: c :: x :: r) z e := by
  rcases hscan : scanFloatDigits 16 false false 0 0 (x :: r) with ⟨m', f, d, rest⟩
  rw [readFloat_hex hc hscan] at h
  split at h
  · rename_i hd
    subst hd
    split at h
    · rename_i y hy
      split at h
      · simp at h
      · rename_i hpass
        simp only [Option.some.injEq, Prod.mk.injEq] at h
        obtain ⟨rfl, rfl, rfl⟩ := h
        have hok := ok_of_pass hpass
        rw [underscoreOK_hex hc] at hok
        by_cases hx : x = 95
        · subst hx
          rw [underscores_under] at hok
          rw [scanFloatDigits, if_pos rfl] at hscan
          obtain ⟨u, rfl, hm, saw, hsaw⟩ := mantissa_of_scan (hex := true) rfl (saw := .underscore) (by simp) hok hscan
          obtain ⟨z, hz, hcl⟩ := exponent_of (hex := true) (c := 112) (letters := [112, 80]) (by decide) (by decide) hy hsaw
          refine ⟨z - 4 * f, .hex_ hc hm ?_ hz, ?_⟩
          · intro h46
            obtain ⟨b, t, rfl, -⟩ := mantissa_ne hm
            simp only [List.head?_cons, Option.some.injEq] at h46
            subst h46
            rw [List.cons_append, underscores_other (by decide) (by decide)] at hok
            simp at hok
          · have hf := mantissa_frac hm
            have := Clip.exp (s := 48 :: c :: 95 :: (u ++ rest)) (f := 4 * f) (u := 48 :: c :: 95 :: u) (t := rest) (by simp)
              (exponent_mono (by decide) hz) (by simp; omega) hcl
            simpa using this
        · have hok' : underscoresFrom true .other (x :: r) = true := by
            by_cases ht : tests true x = true
            · rw [underscores_digit ht] at hok ⊢; exact hok
            · have ht : tests true x = false := by simpa using ht
              rw [underscores_other ht hx] at hok ⊢; exact hok
          obtain ⟨u, hu, hm, saw, hsaw⟩ := mantissa_of_scan (hex := true) rfl (saw := .other) (by simp) hok' hscan
          obtain ⟨z, hz, hcl⟩ := exponent_of (hex := true) (c := 112) (letters := [112, 80]) (by decide) (by decide) hy hsaw
          refine ⟨z - 4 * f, ?_, ?_⟩
          · rw [hu]
            exact .hex hc hm hz
          · have hf := mantissa_frac hm
            rw [hu]
            have := Clip.exp (s := 48 :: c :: (u ++ rest)) (f := 4 * f) (u := 48 :: c :: u) (t := rest) (by simp)
              (exponent_mono (by decide) hz) (by simp; omega) hcl
            simpa using this
    · simp at h
  · simp at h

theorem floatText_of {s : Bytes} {m b : Nat} {e : Int} (h : readFloat s = some (m, b, e)) :
    ∃ z, FloatText s m b z ∧ Clip s z e := by
  by_cases hp : floatPrefix s = (false, s)
  · exact floatText_ten hp h
  · unfold floatPrefix at hp
    split at hp
    · split at hp
      · rename_i hc
        exact floatText_hex hc h
      · simp at hp
    · simp at hp

end Verif.Props
