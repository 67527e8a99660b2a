import Verif.Proofs.Text
import Verif.Spec.Json
/-! Property C68: which JSON texts the 64-bit, `Bool` and `HexBytes` types accept, and as what. -/
namespace Verif.Props
open Verif Verif.Spec

theorem isSpace_iff (b : UInt8) : isSpace b = true ↔ b = 32 ∨ b = 9 ∨ b = 10 ∨ b = 13 := by
  simp [isSpace, or_assoc]

theorem trimJson_padded (data : Bytes) : Padded data (trimJson data) := by
  have hb : ∀ s : Bytes, Blank (s.takeWhile isSpace) := fun s b hb => (isSpace_iff b).1 (by
    have := List.all_takeWhile (p := isSpace) (l := s)
    rw [List.all_eq_true] at this
    exact this b hb)
  refine ⟨data.takeWhile isSpace, ((data.dropWhile isSpace).reverse.takeWhile isSpace).reverse, hb _, ?_, ?_⟩
  · intro b h
    exact hb _ b (List.mem_reverse.1 h)
  · unfold trimJson
    rw [List.append_assoc, ← List.reverse_append, List.takeWhile_append_dropWhile, List.reverse_reverse,
      List.takeWhile_append_dropWhile]

theorem dropWhile_blank {a t : Bytes} (ha : Blank a) : (a ++ t).dropWhile isSpace = t.dropWhile isSpace := by
  induction a with
  | nil => rfl
  | cons x a ih =>
    rw [List.cons_append, List.dropWhile_cons, if_pos ((isSpace_iff x).2 (ha x (by simp)))]
    exact ih fun b hb => ha b (by simp [hb])

/-- What is between the blanks is what `trimJson` returns, if it does not begin or end with a blank. -/
theorem trimJson_of_padded {data t : Bytes} (h : Padded data t) (h1 : ∀ b, t.head? = some b → isSpace b = false)
    (h2 : ∀ b, t.getLast? = some b → isSpace b = false) (hne : t ≠ []) : trimJson data = t := by
  obtain ⟨a, b, ha, hb, rfl⟩ := h
  have ht := trimJson_id h1 h2
  unfold trimJson at ht ⊢
  rw [List.append_assoc, dropWhile_blank ha]
  have hd : (t ++ b).dropWhile isSpace = t.dropWhile isSpace ++ b := by
    cases t with
    | nil => exact absurd rfl hne
    | cons x t => rw [List.cons_append, List.dropWhile_cons, List.dropWhile_cons, h1 x rfl]; rfl
  rw [hd, List.reverse_append, dropWhile_blank (fun x hx => hb x (List.mem_reverse.1 hx)), ht]

theorem digits_isDigit {s : Bytes} (h : Digits s) : ∀ b ∈ s, isDigit b = true := fun b hb => (isDigit_iff b).2 (h.2 b hb)

theorem digitsValue_some (s : Bytes) : ∀ acc n, digitsValue acc s = some n ↔
    (∀ b ∈ s, 48 ≤ b.toNat ∧ b.toNat ≤ 57) ∧ n = s.foldl (fun acc b => acc * 10 + (b.toNat - 48)) acc := by
  induction s with
  | nil => intro acc n; simp [digitsValue, eq_comm]
  | cons b s ih =>
    intro acc n
    unfold digitsValue
    by_cases hb : isDigit b = true
    · rw [if_pos hb, ih]
      simp only [List.mem_cons, forall_eq_or_imp, (isDigit_iff b).1 hb, List.foldl_cons]
      simp
    · rw [if_neg hb]
      have : ¬ (48 ≤ b.toNat ∧ b.toNat ≤ 57) := by rw [← isDigit_iff]; exact hb
      simp [this]

theorem digitsValue_zero (s : Bytes) (n : Nat) (hne : s ≠ []) : digitsValue 0 s = some n ↔ Digits s ∧ n = digitsNat s := by
  rw [digitsValue_some]
  unfold Digits digitsNat
  simp [hne]

theorem jsonDigits_iff (s : Bytes) (n : Nat) : jsonDigits s = some n ↔ JsonNat s n := by
  unfold jsonDigits JsonNat
  split
  · simp [Digits]
  · rename_i b
    rw [digitsValue_zero _ _ (by simp)]
    simp only [List.head?_cons, Option.some.injEq]
    constructor
    · rintro ⟨h1, h2⟩; exact ⟨h1, fun h => by rw [h], h2⟩
    · rintro ⟨h1, _, h2⟩; exact ⟨h1, h2⟩
  · rename_i t hn
    simp only [List.head?_cons, true_implies, reduceCtorEq, false_iff]
    rintro ⟨_, h, _⟩
    exact hn (by simpa using h)
  · rename_i bs h0 h1 h2
    rw [digitsValue_zero _ _ (by rintro rfl; exact h0 rfl)]
    constructor
    · rintro ⟨a, b⟩
      refine ⟨a, fun hh => ?_, b⟩
      cases s with
      | nil => exact absurd rfl h0
      | cons x t =>
        simp only [List.head?_cons, Option.some.injEq] at hh
        subst hh
        exact absurd rfl (h2 t)
    · rintro ⟨a, _, b⟩; exact ⟨a, b⟩

theorem _root_.Verif.Spec.JsonNat.edges {s : Bytes} {n : Nat} (h : JsonNat s n) :
    (∀ b, s.head? = some b → isSpace b = false) ∧ (∀ b, s.getLast? = some b → isSpace b = false) ∧ s ≠ [] ∧ s ≠ jsonNull ∧
      s.head? ≠ some 45 := by
  refine ⟨fun b hb => isSpace_digit (digits_isDigit h.1 b (List.mem_of_mem_head? hb)),
    fun b hb => isSpace_digit (digits_isDigit h.1 b (List.mem_of_getLast? hb)), h.1.1, ?_, ?_⟩
  · rintro rfl
    have := digits_isDigit h.1 110 (by decide)
    revert this; decide
  · intro hh
    have := digits_isDigit h.1 45 (List.mem_of_mem_head? hh)
    revert this; decide

theorem _root_.Verif.Spec.JsonInt.edges {s : Bytes} {z : Int} (h : JsonInt s z) :
    (∀ b, s.head? = some b → isSpace b = false) ∧ (∀ b, s.getLast? = some b → isSpace b = false) ∧ s ≠ [] ∧ s ≠ jsonNull := by
  rcases h with ⟨n, h, _⟩ | ⟨d, n, rfl, h, _⟩
  · exact ⟨h.edges.1, h.edges.2.1, h.edges.2.2.1, h.edges.2.2.2.1⟩
  · refine ⟨fun b hb => ?_, fun b hb => ?_, by simp, by simp [jsonNull]⟩
    · simp at hb; subst hb; rfl
    · have hd := h.1.1
      rw [List.getLast?_cons_of_ne_nil hd] at hb
      exact h.edges.2.1 b hb

/-- On a trimmed text. -/
theorem jsonInt_core (t : Bytes) (z : Int) (hn : t ≠ jsonNull) :
    (match t with
    | 45 :: r =>
      match jsonDigits r with
      | some n => if n ≤ 2 ^ 63 then Res.ok (-(n : Int)) else .err .parse
      | none => .err .parse
    | r =>
      match jsonDigits r with
      | some n => if n < 2 ^ 63 then .ok (n : Int) else .err .parse
      | none => .err .parse) = .ok z ↔ (-2 ^ 63 ≤ z ∧ z < 2 ^ 63 ∧ JsonInt t z) := by
  split
  · rename_i r
    have hno : ∀ n, ¬ JsonNat (45 :: r) n := fun n h => h.edges.2.2.2.2 rfl
    cases hd : jsonDigits r with
    | none =>
      simp only [reduceCtorEq, false_iff]
      rintro ⟨_, _, ⟨n, h, _⟩ | ⟨d, n, he, h, _⟩⟩
      · exact hno n h
      · cases he
        rw [(jsonDigits_iff _ _).2 h] at hd; cases hd
    | some m =>
      have hm := (jsonDigits_iff _ _).1 hd
      simp only []
      constructor
      · intro h
        split at h
        · cases h
          exact ⟨by omega, by omega, .inr ⟨r, m, rfl, hm, rfl⟩⟩
        · cases h
      · rintro ⟨h1, h2, ⟨n, h, _⟩ | ⟨d, n, he, h, rfl⟩⟩
        · exact absurd h (hno n)
        · cases he
          rw [(jsonDigits_iff _ _).2 h, Option.some.injEq] at hd
          subst hd
          rw [if_pos (by omega)]
  · rename_i h45
    have hno : ∀ d, t ≠ 45 :: d := fun d h => h45 d h
    cases hd : jsonDigits t with
    | none =>
      simp only [reduceCtorEq, false_iff]
      rintro ⟨_, _, ⟨n, h, _⟩ | ⟨d, n, he, h, _⟩⟩
      · rw [(jsonDigits_iff _ _).2 h] at hd; cases hd
      · exact hno d he
    | some m =>
      have hm := (jsonDigits_iff _ _).1 hd
      simp only []
      constructor
      · intro h
        split at h
        · cases h
          exact ⟨by omega, by omega, .inl ⟨m, hm, rfl⟩⟩
        · cases h
      · rintro ⟨h1, h2, ⟨n, h, rfl⟩ | ⟨d, n, he, h, _⟩⟩
        · rw [(jsonDigits_iff _ _).2 h, Option.some.injEq] at hd
          subst hd
          rw [if_pos (by omega)]
        · exact absurd he (hno d)

theorem null_edges : trimJson jsonNull = jsonNull := by decide

theorem jsonInt64_iff (data : Bytes) (z : Int) : jsonInt64 data = .ok z ↔
    ∃ t, Padded data t ∧ ((t = nullText ∧ z = 0) ∨ (-2 ^ 63 ≤ z ∧ z < 2 ^ 63 ∧ JsonInt t z)) := by
  unfold jsonInt64
  simp only []
  constructor
  · intro h
    refine ⟨trimJson data, trimJson_padded data, ?_⟩
    by_cases hn : trimJson data = jsonNull
    · rw [if_pos hn] at h
      cases h
      exact .inl ⟨hn, rfl⟩
    · rw [if_neg hn] at h
      exact .inr ((jsonInt_core _ z hn).1 h)
  · rintro ⟨t, hp, ⟨rfl, rfl⟩ | ⟨h1, h2, h⟩⟩
    · have : trimJson data = jsonNull := trimJson_of_padded (t := nullText) hp (by simp [nullText]; decide)
        (by simp [nullText]; decide) (by simp [nullText])
      rw [if_pos this]
    · have ht : trimJson data = t := trimJson_of_padded hp h.edges.1 h.edges.2.1 h.edges.2.2.1
      rw [ht, if_neg h.edges.2.2.2]
      exact (jsonInt_core t z h.edges.2.2.2).2 ⟨h1, h2, h⟩

theorem jsonUint64_iff (data : Bytes) (n : Nat) : jsonUint64 data = .ok n ↔
    ∃ t, Padded data t ∧ ((t = nullText ∧ n = 0) ∨ (n < 2 ^ 64 ∧ JsonNat t n)) := by
  unfold jsonUint64
  simp only []
  constructor
  · intro h
    refine ⟨trimJson data, trimJson_padded data, ?_⟩
    by_cases hn : trimJson data = jsonNull
    · rw [if_pos hn] at h
      cases h
      exact .inl ⟨hn, rfl⟩
    · rw [if_neg hn] at h
      split at h
      · rename_i m hm
        split at h
        · cases h
          rename_i hlt
          exact .inr ⟨hlt, (jsonDigits_iff _ _).1 hm⟩
        · cases h
      · cases h
  · rintro ⟨t, hp, ⟨rfl, rfl⟩ | ⟨h1, h⟩⟩
    · have : trimJson data = jsonNull := trimJson_of_padded (t := nullText) hp (by simp [nullText]; decide)
        (by simp [nullText]; decide) (by simp [nullText])
      rw [if_pos this]
    · have ht : trimJson data = t := trimJson_of_padded hp h.edges.1 h.edges.2.1 h.edges.2.2.1
      rw [ht, if_neg h.edges.2.2.2.1, (jsonDigits_iff _ _).2 h]
      exact if_pos h1

/-- C68: a text that does not start with a quote is an `Int64` exactly when it is a JSON integer in range, or null. -/
theorem C68_int64 (data : Bytes) (z : Int) (hq : data.head? ≠ some 34) : int64UnmarshalJSON data = .ok z ↔
    ∃ t, Padded data t ∧ ((t = nullText ∧ z = 0) ∨ (-2 ^ 63 ≤ z ∧ z < 2 ^ 63 ∧ JsonInt t z)) := by
  unfold int64UnmarshalJSON
  split
  · rw [← jsonInt64_iff]
    constructor
    · intro h; cases h
    · intro h
      have : jsonInt64 [] = .err .parse := by decide
      rw [this] at h; cases h
  · exact absurd rfl hq
  · exact jsonInt64_iff data z

/-- C68: the same for `Uint64`. -/
theorem C68_uint64 (data : Bytes) (n : Nat) (hq : data.head? ≠ some 34) : uint64UnmarshalJSON data = .ok n ↔
    ∃ t, Padded data t ∧ ((t = nullText ∧ n = 0) ∨ (n < 2 ^ 64 ∧ JsonNat t n)) := by
  unfold uint64UnmarshalJSON
  split
  · rw [← jsonUint64_iff]
    constructor
    · intro h; cases h
    · intro h
      have : jsonUint64 [] = .err .parse := by decide
      rw [this] at h; cases h
  · exact absurd rfl hq
  · exact jsonUint64_iff data n

theorem parseUint64_iff (s : Bytes) (n : Nat) : parseUint64 s = .ok n ↔ n < 2 ^ 64 ∧ Digits s ∧ n = digitsNat s := by
  unfold parseUint64
  by_cases he : s = []
  · subst he; simp [Digits]
  · rw [if_neg he, ← digitsValue_zero s n he]
    cases digitsValue 0 s with
    | none => simp
    | some m =>
      simp only [Option.some.injEq]
      constructor
      · intro h
        split at h
        · cases h; exact ⟨by assumption, rfl⟩
        · cases h
      · rintro ⟨h, rfl⟩; exact if_pos h

/-- C68: a quoted `Uint64` is accepted exactly when it is a string of digits in range. -/
theorem C68_uint64_quoted (s : Bytes) (n : Nat) (hs : Verbatim s) : uint64UnmarshalJSON ([34] ++ s ++ [34]) = .ok n ↔
    n < 2 ^ 64 ∧ Digits s ∧ n = digitsNat s := by
  show (match jsonString ([34] ++ s ++ [34]) with
    | .ok s => parseUint64 s
    | .err e => .err e
    | .panic => .panic) = _ ↔ _
  rw [jsonString_quoted s hs]
  exact parseUint64_iff s n

theorem _root_.Verif.Spec.Digits.first {d : Bytes} (h : Digits d) (c : UInt8) (hc : c.toNat < 48 ∨ 57 < c.toNat) (t : Bytes) : d ≠ c :: t := by
  rintro rfl
  have := h.2 c (by simp)
  omega

theorem parseInt64_iff (s : Bytes) (z : Int) : parseInt64 s = .ok z ↔ -2 ^ 63 ≤ z ∧ z < 2 ^ 63 ∧ SignedText s z := by
  unfold parseInt64
  split
  rename_i neg body hb
  -- the sign and the body, as the specification sees them
  have hst : SignedText s z ↔ Digits body ∧ z = if neg then -(digitsNat body : Int) else digitsNat body := by
    unfold SignedText
    split at hb
    · rename_i r
      obtain ⟨rfl, rfl⟩ := Prod.mk.inj hb
      constructor
      · rintro ⟨d, hd, ⟨he, _⟩ | ⟨he, rfl⟩ | ⟨he, _⟩⟩
        · exact absurd he.symm (hd.first 43 (by decide) _)
        · cases he; exact ⟨hd, rfl⟩
        · cases he
      · rintro ⟨hd, hz⟩; exact ⟨_, hd, .inr (.inl ⟨rfl, hz⟩)⟩
    · rename_i r
      obtain ⟨rfl, rfl⟩ := Prod.mk.inj hb
      constructor
      · rintro ⟨d, hd, ⟨he, _⟩ | ⟨he, _⟩ | ⟨he, rfl⟩⟩
        · exact absurd he.symm (hd.first 45 (by decide) _)
        · cases he
        · cases he; exact ⟨hd, rfl⟩
      · rintro ⟨hd, hz⟩; exact ⟨_, hd, .inr (.inr ⟨rfl, hz⟩)⟩
    · rename_i h43 h45
      cases hb
      constructor
      · rintro ⟨d, hd, ⟨rfl, hz⟩ | ⟨he, _⟩ | ⟨he, _⟩⟩
        · exact ⟨hd, hz⟩
        · exact absurd he (h43 d)
        · exact absurd he (h45 d)
      · rintro ⟨hd, hz⟩; exact ⟨s, hd, .inl ⟨rfl, hz⟩⟩
  rw [hst]
  by_cases he : body = []
  · subst he; simp [Digits]
  · rw [if_neg he]
    have hdv := digitsValue_zero body
    cases hv : digitsValue 0 body with
    | none =>
      simp only [reduceCtorEq, false_iff]
      rintro ⟨_, _, hd, _⟩
      rw [(hdv (digitsNat body) he).2 ⟨hd, rfl⟩] at hv; cases hv
    | some m =>
      obtain ⟨hd, rfl⟩ := (hdv m he).1 hv
      simp only [hd, true_and]
      cases neg with
      | true =>
        simp only [if_true]
        constructor
        · intro h
          split at h
          · cases h; exact ⟨by omega, by omega, rfl⟩
          · cases h
        · rintro ⟨h1, h2, rfl⟩; exact if_pos (by omega)
      | false =>
        simp only [Bool.false_eq_true, if_false]
        constructor
        · intro h
          split at h
          · cases h; exact ⟨by omega, by omega, rfl⟩
          · cases h
        · rintro ⟨h1, h2, rfl⟩; exact if_pos (by omega)

/-- C68: a quoted `Int64`. -/
theorem C68_int64_quoted (s : Bytes) (z : Int) (hs : Verbatim s) : int64UnmarshalJSON ([34] ++ s ++ [34]) = .ok z ↔
    -2 ^ 63 ≤ z ∧ z < 2 ^ 63 ∧ SignedText s z := by
  show (match jsonString ([34] ++ s ++ [34]) with
    | .ok s => parseInt64 s
    | .err e => .err e
    | .panic => .panic) = _ ↔ _
  rw [jsonString_quoted s hs]
  exact parseInt64_iff s z

/-- C68: `Bool` accepts null, true, false and integers in range (non-zero is true). -/
theorem C68_bool (data : Bytes) (b : Bool) : boolUnmarshalJSON data = .ok b ↔
    ∃ t, Padded data t ∧ ((t = nullText ∧ b = false) ∨ (t = trueText ∧ b = true) ∨ (t = falseText ∧ b = false) ∨
      (∃ z, -2 ^ 63 ≤ z ∧ z < 2 ^ 63 ∧ JsonInt t z ∧ (b = true ↔ z ≠ 0))) := by
  have hpad : ∀ t, (∃ b, t.head? = some b ∧ isSpace b = false) → (∃ b, t.getLast? = some b ∧ isSpace b = false) →
      Padded data t → trimJson data = t := by
    rintro t ⟨x, hx, hx'⟩ ⟨y, hy, hy'⟩ hp
    refine trimJson_of_padded hp (fun b hb => ?_) (fun b hb => ?_) (by rintro rfl; cases hx)
    · rw [hx] at hb; cases hb; exact hx'
    · rw [hy] at hb; cases hb; exact hy'
  unfold boolUnmarshalJSON
  split
  · rename_i z hz
    obtain ⟨t, hp, ht⟩ := (jsonInt64_iff _ _).1 hz
    constructor
    · intro h
      refine ⟨t, hp, ?_⟩
      rcases ht with ⟨h1, rfl⟩ | ⟨h1, h2, h3⟩
      · cases h; exact .inl ⟨h1, by decide⟩
      · cases h; exact .inr (.inr (.inr ⟨z, h1, h2, h3, by simp⟩))
    · rintro ⟨u, hu, h⟩
      have hz' : ∀ z', jsonInt64 data = .ok z' → z' = z := fun z' h' => by rw [hz] at h'; cases h'; rfl
      rcases h with ⟨rfl, rfl⟩ | ⟨rfl, rfl⟩ | ⟨rfl, rfl⟩ | ⟨z', h1, h2, h3, h4⟩
      · have := hz' 0 ((jsonInt64_iff _ _).2 ⟨nullText, hu, .inl ⟨rfl, rfl⟩⟩)
        subst this; rfl
      · have hd := hpad trueText ⟨116, rfl, by decide⟩ ⟨101, rfl, by decide⟩ hu
        exfalso
        unfold jsonInt64 at hz
        rw [hd] at hz
        revert hz; simp [trueText, jsonNull, jsonDigits, digitsValue, isDigit]
      · have hd := hpad falseText ⟨102, rfl, by decide⟩ ⟨101, rfl, by decide⟩ hu
        exfalso
        unfold jsonInt64 at hz
        rw [hd] at hz
        revert hz; simp [falseText, jsonNull, jsonDigits, digitsValue, isDigit]
      · have := hz' z' ((jsonInt64_iff _ _).2 ⟨u, hu, .inr ⟨h1, h2, h3⟩⟩)
        subst this
        cases b <;> simp_all
  · rename_i hz
    have hno : ∀ t, Padded data t → (t ≠ nullText ∧ ∀ z, -2 ^ 63 ≤ z → z < 2 ^ 63 → ¬ JsonInt t z) := fun t hp =>
      ⟨fun h => hz 0 ((jsonInt64_iff _ _).2 ⟨t, hp, .inl ⟨h, rfl⟩⟩),
        fun z h1 h2 h => hz z ((jsonInt64_iff _ _).2 ⟨t, hp, .inr ⟨h1, h2, h⟩⟩)⟩
    unfold jsonBool
    simp only []
    constructor
    · intro h
      refine ⟨trimJson data, trimJson_padded data, ?_⟩
      rw [if_neg (show trimJson data ≠ jsonNull from (hno _ (trimJson_padded data)).1)] at h
      split at h
      · rename_i ht; cases h; exact .inr (.inl ⟨ht, rfl⟩)
      · split at h
        · rename_i ht; cases h; exact .inr (.inr (.inl ⟨ht, rfl⟩))
        · cases h
    · rintro ⟨t, hp, h⟩
      rcases h with ⟨h, _⟩ | ⟨rfl, rfl⟩ | ⟨rfl, rfl⟩ | ⟨z, h1, h2, h3, _⟩
      · exact absurd h (hno t hp).1
      · rw [hpad trueText ⟨116, rfl, by decide⟩ ⟨101, rfl, by decide⟩ hp]; rfl
      · rw [hpad falseText ⟨102, rfl, by decide⟩ ⟨101, rfl, by decide⟩ hp]; rfl
      · exact absurd h3 ((hno t hp).2 z h1 h2)

theorem hexValue_iff (b : UInt8) (x : Nat) : hexValue b = some x ↔ HexDig b x := by
  have hlt : ∀ b : Fin 256, ∀ x ∈ hexValue (UInt8.ofNat b.val), x < 16 := by decide +kernel
  have hall : ∀ b : Fin 256, ∀ x : Fin 16, hexValue (UInt8.ofNat b.val) = some x.val ↔ HexDig (UInt8.ofNat b.val) x.val := by
    unfold HexDig; decide +kernel
  have hb := hlt ⟨b.toNat, b.toNat_lt⟩
  have ha := hall ⟨b.toNat, b.toNat_lt⟩
  simp only [UInt8.ofNat_toNat] at hb ha
  constructor
  · intro h
    exact (ha ⟨x, hb x h⟩).1 h
  · intro h
    have hx : x < 16 := by
      rcases h with h | h <;> exact (List.getElem?_eq_some_iff.1 h).1
    exact (ha ⟨x, hx⟩).2 h

theorem hexDecode_iff (s : Bytes) : ∀ t, hexDecode s = .ok t ↔ HexText s t := by
  induction s using hexDecode.induct with
  | case1 =>
    intro t
    simp only [hexDecode, Res.ok.injEq]
    constructor
    · rintro rfl; exact .nil
    · intro h; cases h; rfl
  | case2 a =>
    intro t
    simp only [hexDecode, reduceCtorEq, false_iff]
    intro h; cases h
  | case3 a b rest x y hb ha r hr ih =>
    intro t
    simp only [hexDecode, ha, hb, hr, Res.ok.injEq]
    constructor
    · rintro rfl
      exact .cons ((hexValue_iff _ _).1 ha) ((hexValue_iff _ _).1 hb) ((ih _).1 hr)
    · intro h
      cases h with
      | cons h1 h2 h3 =>
        rw [← hexValue_iff, ha] at h1
        rw [← hexValue_iff, hb] at h2
        cases h1; cases h2
        have := (ih _).2 h3
        rw [hr] at this
        cases this; rfl
  | case4 a b rest x y hb ha e hr ih =>
    intro t
    simp only [hexDecode, ha, hb, hr, reduceCtorEq, false_iff]
    intro h
    cases h with
    | cons h1 h2 h3 => have := (ih _).2 h3; rw [hr] at this; cases this
  | case5 a b rest x y hb ha hr ih =>
    intro t
    simp only [hexDecode, ha, hb, hr, reduceCtorEq, false_iff]
    intro h
    cases h with
    | cons h1 h2 h3 => have := (ih _).2 h3; rw [hr] at this; cases this
  | case6 a b rest hn =>
    intro t
    constructor
    · intro h
      unfold hexDecode at h
      split at h
      · rename_i x y hx hy; exact absurd hy (hn x y hx)
      · cases h
    · intro h
      cases h with
      | cons h1 h2 h3 => exact absurd ((hexValue_iff _ _).2 h2) (hn _ _ ((hexValue_iff _ _).2 h1))

/-- C68: `HexBytes` accepts exactly an even number of hex digits, of either case, and yields the bytes they spell. -/
theorem C68_hex (s t : Bytes) (hs : Verbatim s) : hexBytesUnmarshalJSON ([34] ++ s ++ [34]) = .ok t ↔ HexText s t := by
  unfold hexBytesUnmarshalJSON
  rw [jsonString_quoted s hs]
  exact hexDecode_iff s t

theorem jsonUnquote_ne_panic (fuel : Nat) : ∀ s, jsonUnquote fuel s ≠ .panic := by
  induction fuel with
  | zero => intro s; simp [jsonUnquote]
  | succ f ih =>
    intro s
    unfold jsonUnquote
    split
    · simp
    · simp only []
      repeat' split
      all_goals first | exact absurd (by assumption) (ih _) | simp

/-- C68: none of them panics, on any input. -/
theorem C68_no_panic (data : Bytes) : int64UnmarshalJSON data ≠ .panic ∧ uint64UnmarshalJSON data ≠ .panic ∧
    boolUnmarshalJSON data ≠ .panic ∧ hexBytesUnmarshalJSON data ≠ .panic := by
  have hs : jsonString data ≠ .panic := by
    unfold jsonString
    simp only []
    split
    · simp
    · split
      · exact jsonUnquote_ne_panic _ _
      · simp
  have hi : jsonInt64 data ≠ .panic := by
    unfold jsonInt64; simp only []; repeat' split
    all_goals simp
  have hu : jsonUint64 data ≠ .panic := by
    unfold jsonUint64; simp only []; repeat' split
    all_goals simp
  have hb : jsonBool data ≠ .panic := by
    unfold jsonBool; simp only []; repeat' split
    all_goals simp
  have hpi : ∀ s, parseInt64 s ≠ .panic := by
    intro s; unfold parseInt64; simp only []; repeat' split
    all_goals simp
  have hpu : ∀ s, parseUint64 s ≠ .panic := by
    intro s; unfold parseUint64; repeat' split
    all_goals simp
  have hh : ∀ s, hexDecode s ≠ .panic := by
    intro s
    induction s using hexDecode.induct with
    | case1 => simp [hexDecode]
    | case2 => simp [hexDecode]
    | case3 a b rest x y hb ha r hr ih => simp [hexDecode, ha, hb, hr]
    | case4 a b rest x y hb ha e hr ih => simp [hexDecode, ha, hb, hr]
    | case5 a b rest x y hb ha hr ih => exact absurd hr ih
    | case6 a b rest hn =>
      unfold hexDecode
      split
      · rename_i x y hx hy; exact absurd hy (hn x y hx)
      · simp
  refine ⟨?_, ?_, ?_, ?_⟩
  · unfold int64UnmarshalJSON
    split
    · simp
    · cases h : jsonString (34 :: _) with
      | ok s => exact hpi s
      | err e => simp
      | panic => exact absurd h hs
    · exact hi
  · unfold uint64UnmarshalJSON
    split
    · simp
    · cases h : jsonString (34 :: _) with
      | ok s => exact hpu s
      | err e => simp
      | panic => exact absurd h hs
    · exact hu
  · unfold boolUnmarshalJSON
    split
    · simp
    · exact hb
  · unfold hexBytesUnmarshalJSON
    cases h : jsonString data with
    | ok s => exact hh s
    | err e => simp
    | panic => exact absurd h hs

example : boolUnmarshalJSON " 2\n".toUTF8.toList = .ok true := by decide +kernel
example : JsonInt [45, 49, 50] (-12) :=
  .inr ⟨[49, 50], 12, rfl, ⟨⟨by decide, by decide⟩, by decide, by decide⟩, by decide⟩
example : SignedText "+0012".toUTF8.toList 12 :=
  ⟨[48, 48, 49, 50], ⟨by decide, by decide⟩, .inr (.inl ⟨by decide +kernel, by decide⟩)⟩
example : int64UnmarshalJSON "0012".toUTF8.toList = .err .parse := by decide +kernel
example : int64UnmarshalJSON "1e3".toUTF8.toList = .err .parse := by decide +kernel
-- "DEad01"
example : HexText [68, 69, 97, 100, 48, 49] [0xde, 0xad, 0x01] := by
  show HexText [68, 69, 97, 100, 48, 49] [UInt8.ofNat (16 * 13 + 14), UInt8.ofNat (16 * 10 + 13), UInt8.ofNat (16 * 0 + 1)]
  exact .cons (by unfold HexDig; decide) (by unfold HexDig; decide) (.cons (by unfold HexDig; decide)
    (by unfold HexDig; decide) (.cons (by unfold HexDig; decide) (by unfold HexDig; decide) .nil))
example : hexBytesUnmarshalJSON "\"abc\"".toUTF8.toList = .err .parse := by decide +kernel

end Verif.Props
