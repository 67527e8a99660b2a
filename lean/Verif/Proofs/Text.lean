import Verif.Model.U128
import Verif.Model.Json
import Verif.Proofs.Bits
/-! Decimal, hex, JSON string and big integer conversions. -/
namespace Verif

/-! decimal -/

theorem digitsValue_append (a b : Bytes) : ∀ acc, digitsValue acc (a ++ b) = (digitsValue acc a).bind (digitsValue · b) := by
  induction a with
  | nil => intro acc; rfl
  | cons x a ih =>
    intro acc
    simp only [List.cons_append, digitsValue]
    by_cases h : isDigit x
    · rw [if_pos h, if_pos h, ih]
    · rw [if_neg h, if_neg h]; rfl

theorem ofNat_digit {d : Nat} (h : d < 10) : (UInt8.ofNat (48 + d)).toNat = 48 + d := by
  rw [UInt8.toNat_ofNat']; omega

theorem isDigit_iff (b : UInt8) : isDigit b = true ↔ 48 ≤ b.toNat ∧ b.toNat ≤ 57 := by
  simp [isDigit, UInt8.le_iff_toNat_le]

theorem isDigit_ofNat {d : Nat} (h : d < 10) : isDigit (UInt8.ofNat (48 + d)) = true := by
  rw [isDigit_iff, ofNat_digit h]; omega

theorem decimalAux_spec (fuel : Nat) : ∀ n, n < 2 ^ fuel → 0 < fuel →
    digitsValue 0 (decimalAux fuel n) = some n ∧ (∀ b ∈ decimalAux fuel n, isDigit b = true) ∧
    decimalAux fuel n ≠ [] ∧ (n < 10 → decimalAux fuel n = [UInt8.ofNat (48 + n)]) ∧
    (10 ≤ n → ∃ b c t, decimalAux fuel n = b :: c :: t ∧ b ≠ 48) := by
  induction fuel with
  | zero => intro n _ h; omega
  | succ f ih =>
    intro n hn _
    unfold decimalAux
    by_cases h : n < 10
    · rw [if_pos h]
      refine ⟨?_, ?_, by simp, fun _ => rfl, fun h' => by omega⟩
      · simp only [digitsValue]
        rw [if_pos (isDigit_ofNat h), ofNat_digit h]
        congr 1; omega
      · intro b hb
        rw [List.mem_singleton] at hb
        rw [hb]; exact isDigit_ofNat h
    · rw [if_neg h]
      rw [Nat.pow_succ] at hn
      obtain ⟨h1, h2, h3, h4, h5⟩ := ih (n / 10) (by omega) (by
        rcases Nat.eq_zero_or_pos f with hf | hf
        · subst hf; omega
        · exact hf)
      have hd : n % 10 < 10 := Nat.mod_lt _ (by omega)
      refine ⟨?_, ?_, by simp, fun h' => absurd h' h, fun _ => ?_⟩
      · rw [digitsValue_append, h1]
        simp only [Option.bind_some, digitsValue]
        rw [if_pos (isDigit_ofNat hd), ofNat_digit hd]
        congr 1; omega
      · intro b hb
        rw [List.mem_append, List.mem_singleton] at hb
        rcases hb with hb | hb
        · exact h2 b hb
        · rw [hb]; exact isDigit_ofNat hd
      · by_cases h10 : n / 10 < 10
        · rw [h4 h10]
          refine ⟨_, _, [], rfl, fun he => ?_⟩
          have := congrArg UInt8.toNat he
          rw [ofNat_digit h10] at this
          have h48 : (48 : UInt8).toNat = 48 := rfl
          omega
        · obtain ⟨b, c, t, he, hb⟩ := h5 (by omega)
          exact ⟨b, c, t ++ [UInt8.ofNat (48 + n % 10)], by rw [he]; simp, hb⟩

theorem decimal_value (n : Nat) : digitsValue 0 (decimal n) = some n := (decimalAux_spec _ n Nat.lt_log2_self (by omega)).1
theorem decimal_digits (n : Nat) : ∀ b ∈ decimal n, isDigit b = true := (decimalAux_spec _ n Nat.lt_log2_self (by omega)).2.1
theorem decimal_ne_nil (n : Nat) : decimal n ≠ [] := (decimalAux_spec _ n Nat.lt_log2_self (by omega)).2.2.1
theorem decimal_small {n : Nat} (h : n < 10) : decimal n = [UInt8.ofNat (48 + n)] :=
  (decimalAux_spec _ n Nat.lt_log2_self (by omega)).2.2.2.1 h
theorem decimal_big {n : Nat} (h : 10 ≤ n) : ∃ b c t, decimal n = b :: c :: t ∧ b ≠ 48 :=
  (decimalAux_spec _ n Nat.lt_log2_self (by omega)).2.2.2.2 h

theorem jsonDigits_decimal (n : Nat) : jsonDigits (decimal n) = some n := by
  have hv := decimal_value n
  by_cases h : n < 10
  · rw [decimal_small h] at hv ⊢; exact hv
  · obtain ⟨b, c, t, he, hb⟩ := decimal_big (n := n) (by omega)
    rw [he] at hv ⊢
    unfold jsonDigits
    split
    · contradiction
    · rename_i h2; cases h2
    · rename_i h2; cases h2; exact absurd rfl hb
    · exact hv

theorem parseUint64_decimal {n : Nat} (h : n < 2 ^ 64) : parseUint64 (decimal n) = .ok n := by
  unfold parseUint64
  rw [if_neg (decimal_ne_nil n), decimal_value]
  simp only []
  rw [if_pos h]

/-- first byte of a decimal -/
theorem decimal_head (n : Nat) : ∃ b t, decimal n = b :: t ∧ isDigit b = true := by
  match h : decimal n with
  | [] => exact absurd h (decimal_ne_nil n)
  | b :: t => exact ⟨b, t, rfl, decimal_digits n b (by rw [h]; simp)⟩

theorem digit_ne {b : UInt8} (h : isDigit b = true) (c : UInt8) (hc : c.toNat < 48 ∨ 57 < c.toNat) : b ≠ c := by
  rintro rfl
  rw [isDigit_iff] at h; omega

theorem parseInt64_decimalInt {z : Int} (h0 : -2 ^ 63 ≤ z) (h1 : z < 2 ^ 63) : parseInt64 (decimalInt z) = .ok z := by
  unfold decimalInt
  by_cases hz : z < 0
  · rw [if_pos hz]
    unfold parseInt64
    simp only []
    rw [if_neg (decimal_ne_nil _), decimal_value]
    simp only [if_true]
    rw [if_pos (by omega)]
    congr 1; omega
  · rw [if_neg hz]
    obtain ⟨b, t, he, hb⟩ := decimal_head z.natAbs
    have hne := decimal_ne_nil z.natAbs
    have hv := decimal_value z.natAbs
    unfold parseInt64
    rw [he] at hne hv ⊢
    have h43 := digit_ne hb 43 (by decide)
    have h45 := digit_ne hb 45 (by decide)
    split
    rename_i neg body heq
    split at heq
    · rename_i h2; cases h2; exact absurd rfl h43
    · rename_i h2; cases h2; exact absurd rfl h45
    · simp only [Prod.mk.injEq] at heq
      obtain ⟨rfl, rfl⟩ := heq
      rw [if_neg hne, hv]
      simp only [Bool.false_eq_true, if_false]
      rw [if_pos (by omega)]
      congr 1; omega

/-! JSON -/

/-- A byte that stands for itself in a JSON string. -/
def Plain (b : UInt8) : Prop := 32 ≤ b.toNat ∧ b.toNat < 128 ∧ b ≠ 34 ∧ b ≠ 92

theorem plain_digit {b : UInt8} (h : isDigit b = true) : Plain b := by
  have h' := (isDigit_iff b).1 h
  exact ⟨by omega, by omega, digit_ne h 34 (by decide), digit_ne h 92 (by decide)⟩

theorem jsonUnquote_plain (s : Bytes) (h : ∀ b ∈ s, Plain b) : jsonUnquote (s ++ [34]).length (s ++ [34]) = .ok s := by
  induction s with
  | nil => rfl
  | cons b s ih =>
    obtain ⟨h1, h2, h3, h4⟩ := h b (by simp)
    have ih := ih fun x hx => h x (by simp [hx])
    rw [List.cons_append, List.length_cons]
    unfold jsonUnquote
    simp only []
    rw [if_neg h3, if_neg h4, if_neg (by rw [UInt8.lt_iff_toNat_lt]; show ¬ b.toNat < 32; omega),
      if_pos (by rw [UInt8.lt_iff_toNat_lt]; exact h2), ih]
    rfl

theorem trimJson_id {s : Bytes} (h1 : ∀ b, s.head? = some b → isSpace b = false)
    (h2 : ∀ b, s.getLast? = some b → isSpace b = false) : trimJson s = s := by
  unfold trimJson
  have hd : s.dropWhile isSpace = s := by
    cases s with
    | nil => rfl
    | cons b t => rw [List.dropWhile_cons, h1 b rfl]; rfl
  rw [hd]
  have hr : s.reverse.dropWhile isSpace = s.reverse := by
    cases hs : s.reverse with
    | nil => rfl
    | cons b t =>
      rw [List.dropWhile_cons, h2 b (by rw [← List.head?_reverse, hs]; rfl)]; rfl
  rw [hr, List.reverse_reverse]

theorem jsonString_quoted (s : Bytes) (h : ∀ b ∈ s, Plain b) : jsonString ([34] ++ s ++ [34]) = .ok s := by
  unfold jsonString
  have ht : trimJson ([34] ++ s ++ [34]) = [34] ++ s ++ [34] := by
    apply trimJson_id
    · intro b hb; simp at hb; subst hb; rfl
    · intro b hb
      rw [List.getLast?_append] at hb
      simp at hb; subst hb; rfl
  rw [ht]
  simp only []
  rw [if_neg (by simp [jsonNull])]
  exact jsonUnquote_plain s h

theorem isSpace_digit {b : UInt8} (h : isDigit b = true) : isSpace b = false := by
  have h1 := digit_ne h 32 (by decide)
  have h2 := digit_ne h 9 (by decide)
  have h3 := digit_ne h 10 (by decide)
  have h4 := digit_ne h 13 (by decide)
  simp [isSpace, h1, h2, h3, h4]

theorem trimJson_decimal (n : Nat) : trimJson (decimal n) = decimal n := by
  apply trimJson_id
  · intro b hb; exact isSpace_digit (decimal_digits n b (List.mem_of_mem_head? hb))
  · intro b hb; exact isSpace_digit (decimal_digits n b (List.mem_of_getLast? hb))

theorem trimJson_decimalInt (z : Int) : trimJson (decimalInt z) = decimalInt z := by
  unfold decimalInt
  split
  · apply trimJson_id
    · intro b hb; simp at hb; subst hb; rfl
    · intro b hb
      rw [List.getLast?_cons] at hb
      cases hl : (decimal z.natAbs).getLast? with
      | none => rw [List.getLast?_eq_none_iff] at hl; exact absurd hl (decimal_ne_nil _)
      | some c =>
        rw [hl] at hb; simp at hb; subst hb
        exact isSpace_digit (decimal_digits _ _ (List.mem_of_getLast? hl))
  · exact trimJson_decimal _

theorem decimal_ne_null (n : Nat) : decimal n ≠ jsonNull := by
  intro h
  have := decimal_digits n 110 (by rw [h]; decide)
  revert this; decide

theorem jsonUint64_decimal {n : Nat} (h : n < 2 ^ 64) : jsonUint64 (decimal n) = .ok n := by
  unfold jsonUint64
  simp only []
  rw [trimJson_decimal, if_neg (decimal_ne_null n), jsonDigits_decimal]
  simp only []
  rw [if_pos h]

theorem jsonInt64_decimalInt {z : Int} (h0 : -2 ^ 63 ≤ z) (h1 : z < 2 ^ 63) : jsonInt64 (decimalInt z) = .ok z := by
  unfold jsonInt64
  simp only []
  rw [trimJson_decimalInt]
  unfold decimalInt
  by_cases hz : z < 0
  · rw [if_pos hz, if_neg (by simp [jsonNull])]
    simp only []
    rw [jsonDigits_decimal]
    simp only []
    rw [if_pos (by omega)]
    congr 1; omega
  · rw [if_neg hz, if_neg (decimal_ne_null _)]
    obtain ⟨b, t, he, hb⟩ := decimal_head z.natAbs
    have h45 := digit_ne hb 45 (by decide)
    have hv := jsonDigits_decimal z.natAbs
    rw [he] at hv ⊢
    split
    · rename_i h2; cases h2; exact absurd rfl h45
    · rw [hv]
      simp only []
      rw [if_pos (by omega)]
      congr 1; omega

theorem plain_decimalInt (z : Int) : ∀ b ∈ decimalInt z, Plain b := by
  intro b hb
  unfold decimalInt at hb
  split at hb
  · rw [List.mem_cons] at hb
    rcases hb with rfl | hb
    · unfold Plain; decide
    · exact plain_digit (decimal_digits _ b hb)
  · exact plain_digit (decimal_digits _ b hb)

/-! hex -/

theorem hexValue_hexDigit {d : Nat} (h : d < 16) : hexValue (hexDigit d) = some d := by
  have : ∀ d : Fin 16, hexValue (hexDigit d.val) = some d.val := by decide
  exact this ⟨d, h⟩

theorem hexDecode_hexEncode (b : Bytes) : hexDecode (hexEncode b) = .ok b := by
  induction b with
  | nil => rfl
  | cons x b ih =>
    have := x.toNat_lt
    simp only [hexEncode, hexDecode]
    rw [hexValue_hexDigit (by omega), hexValue_hexDigit (by omega), ih]
    simp only []
    rw [Nat.div_add_mod]
    simp

theorem plain_hexDigit {d : Nat} (h : d < 16) : Plain (hexDigit d) := by
  have : ∀ d : Fin 16, (32 ≤ (hexDigit d.val).toNat ∧ (hexDigit d.val).toNat < 128 ∧ hexDigit d.val ≠ 34 ∧
    hexDigit d.val ≠ 92) := by decide
  exact this ⟨d, h⟩

theorem plain_hexEncode (s : Bytes) : ∀ b ∈ hexEncode s, Plain b := by
  induction s with
  | nil => intro b hb; cases hb
  | cons x s ih =>
    intro b hb
    have := x.toNat_lt
    simp only [hexEncode, List.mem_cons] at hb
    rcases hb with rfl | rfl | hb
    · exact plain_hexDigit (by omega)
    · exact plain_hexDigit (by omega)
    · exact ih b hb

/-! big integers -/

theorem foldl_getLE (b : Bytes) : ∀ acc, b.foldl (fun acc x => acc * 256 + x.toNat) acc =
    acc * 256 ^ b.length + getLE b.reverse := by
  induction b with
  | nil => intro acc; simp [getLE]
  | cons x b ih =>
    intro acc
    rw [List.foldl_cons, ih, List.reverse_cons, List.length_cons]
    have : ∀ (u v : Bytes), getLE (u ++ v) = getLE u + 256 ^ u.length * getLE v := by
      intro u v
      induction u with
      | nil => simp [getLE]
      | cons y u ihu => simp only [List.cons_append, getLE, ihu, List.length_cons, Nat.pow_succ]; grind
    rw [this]
    simp only [getLE, List.length_reverse, Nat.pow_succ]
    grind

theorem bigSetBytes_eq (b : Bytes) : bigSetBytes b = getLE b.reverse := by
  unfold bigSetBytes
  rw [foldl_getLE]; simp

theorem bigSetBytes_put {k n : Nat} (h : n < 256 ^ k) : bigSetBytes (putUint .be k n) = n := by
  rw [bigSetBytes_eq]
  simp only [putUint, List.reverse_reverse]
  exact getLE_putLE k n h

theorem bigBytesAux_value (fuel : Nat) : ∀ n, n < 2 ^ fuel → bigSetBytes (bigBytesAux fuel n) = n := by
  induction fuel with
  | zero => intro n h; have : n = 0 := by omega
            subst this; rfl
  | succ f ih =>
    intro n h
    rw [Nat.pow_succ] at h
    unfold bigBytesAux
    by_cases h0 : n = 0
    · rw [if_pos h0, h0]; rfl
    · rw [if_neg h0]
      have := ih (n / 256) (by omega)
      unfold bigSetBytes at this ⊢
      rw [List.foldl_append, this]
      simp only [List.foldl_cons, List.foldl_nil, UInt8.toNat_ofNat']
      omega

theorem bigBytes_value (n : Nat) : bigSetBytes (bigBytes n) = n := bigBytesAux_value _ n Nat.lt_log2_self

theorem scanDigits_digits (b : Bytes) : ∀ ad count acc, (∀ x ∈ b, isDigit x = true) → (b ≠ [] ∨ (ad = true ∧ 0 < count)) →
    scanDigits 10 ad count acc b = digitsValue acc b := by
  induction b with
  | nil =>
    intro ad count acc _ h
    rcases h with h | h
    · exact absurd rfl h
    · simp [scanDigits, digitsValue, h]
  | cons x b ih =>
    intro ad count acc hd _
    have hx := hd x (by simp)
    have hx' := (isDigit_iff x).1 hx
    simp only [scanDigits, digitsValue]
    rw [if_neg (digit_ne hx 95 (by decide)), if_pos hx]
    have : scanDigit x = some (x.toNat - 48) := by unfold scanDigit; rw [if_pos hx]
    rw [this]
    simp only []
    rw [if_pos (by omega)]
    exact ih true (count + 1) _ (fun y hy => hd y (by simp [hy])) (Or.inr ⟨rfl, by omega⟩)

theorem scanNat_decimal (n : Nat) : scanNat (decimal n) = some n := by
  have hv := decimal_value n
  have hd := decimal_digits n
  have hn := decimal_ne_nil n
  by_cases h : n < 10
  · have : ∀ n : Fin 10, scanNat [UInt8.ofNat (48 + n.val)] = some n.val := by decide
    rw [decimal_small h]
    exact this ⟨n, h⟩
  · obtain ⟨b, c, t, he, hb⟩ := decimal_big (n := n) (by omega)
    rw [he] at hv hd hn ⊢
    unfold scanNat
    split
    · rename_i h2; cases h2
    · rename_i h2; cases h2; exact absurd rfl hb
    · rw [scanDigits_digits _ false 0 0 hd (Or.inl hn)]; exact hv

theorem bigSetString_decimal (n : Nat) : bigSetString (decimal n) = some (n : Int) := by
  have hs := scanNat_decimal n
  obtain ⟨b, t, he, hb⟩ := decimal_head n
  rw [he] at hs ⊢
  unfold bigSetString
  split
  · rename_i h2; cases h2; exact absurd rfl (digit_ne hb 43 (by decide))
  · rename_i h2; cases h2; exact absurd rfl (digit_ne hb 45 (by decide))
  · rw [hs]; rfl

/-! ReverseBytes -/

theorem swapAt_length (s : Bytes) (i j : Nat) : (swapAt s i j).length = s.length := by simp [swapAt]

theorem swapAt_get (s : Bytes) {i j k : Nat} (hi : i < s.length) (hj : j < s.length) (hij : i < j) :
    (swapAt s i j)[k]? = if k = i then s[j]? else if k = j then s[i]? else s[k]? := by
  unfold swapAt
  rw [List.getElem?_set, List.getElem?_set]
  by_cases h1 : k = i
  · subst h1
    rw [if_neg (by omega), if_pos rfl, if_pos (by simpa using hi), if_pos rfl]
    rw [List.getElem?_eq_getElem hj]; rfl
  · by_cases h2 : k = j
    · subst h2
      rw [if_pos rfl, if_neg h1, if_pos rfl, if_pos (by simpa using hj)]
      rw [List.getElem?_eq_getElem hi]; rfl
    · rw [if_neg (fun h => h2 h.symm), if_neg (fun h => h1 h.symm), if_neg h1, if_neg h2]

theorem reverseLoop_spec (fuel : Nat) : ∀ (s : Bytes) (i j : Nat), i + j + 1 = s.length → j ≤ i + fuel →
    (reverseLoop fuel s i j).length = s.length ∧
    ∀ k, (reverseLoop fuel s i j)[k]? = if i ≤ k ∧ k ≤ j then s[s.length - 1 - k]? else s[k]? := by
  induction fuel with
  | zero =>
    intro s i j h hf
    refine ⟨rfl, fun k => ?_⟩
    unfold reverseLoop
    split
    · rw [show s.length - 1 - k = k by omega]
    · rfl
  | succ f ih =>
    intro s i j h hf
    unfold reverseLoop
    by_cases hij : i < j
    · rw [if_pos hij]
      obtain ⟨hl, hg⟩ := ih (swapAt s i j) (i + 1) (j - 1) (by rw [swapAt_length]; omega) (by omega)
      rw [swapAt_length] at hl hg
      refine ⟨hl, fun k => ?_⟩
      rw [hg, swapAt_get s (by omega) (by omega) hij, swapAt_get s (by omega) (by omega) hij]
      by_cases h1 : k = i
      · subst h1
        rw [if_neg (by omega), if_pos rfl, if_pos (by omega)]
        congr 1; omega
      · by_cases h2 : k = j
        · subst h2
          rw [if_neg (by omega), if_neg h1, if_pos rfl, if_pos (by omega)]
          congr 1; omega
        · by_cases h3 : i ≤ k ∧ k ≤ j
          · rw [if_pos (by omega), if_neg (by omega), if_neg (by omega), if_pos h3]
          · rw [if_neg (by omega), if_neg h1, if_neg h2, if_neg h3]
    · rw [if_neg hij]
      refine ⟨rfl, fun k => ?_⟩
      split
      · rw [show s.length - 1 - k = k by omega]
      · rfl

theorem reverseBytes_eq (s : Bytes) : reverseBytes s = s.reverse := by
  unfold reverseBytes
  cases hs : s with
  | nil => rfl
  | cons b t =>
    rw [← hs]
    have hpos : 0 < s.length := by rw [hs]; simp
    obtain ⟨hl, hg⟩ := reverseLoop_spec s.length s 0 (s.length - 1) (by omega) (by omega)
    apply List.ext_getElem?
    intro k
    rw [hg]
    by_cases hk : k < s.length
    · rw [if_pos (by omega), List.getElem?_reverse hk]
    · rw [if_neg (by omega), List.getElem?_eq_none (by omega), List.getElem?_eq_none (by simp; omega)]

end Verif
