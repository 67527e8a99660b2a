import Verif.Model.StructTag
import Verif.Spec.StructTag
import Verif.Proofs.JsonString
/-! Raw struct tags: the model follows the convention. -/
namespace Verif.Props
open Spec

theorem tagKeyByte_iff (b : UInt8) : tagKeyByte b = true ↔ 33 ≤ b.toNat ∧ b ≠ 58 ∧ b ≠ 34 ∧ b ≠ 127 := by
  unfold tagKeyByte
  simp only [Bool.and_eq_true, decide_eq_true_eq, bne_iff_ne, UInt8.lt_iff_toNat_lt, and_assoc]
  constructor
  · rintro ⟨h, r⟩; exact ⟨h, r⟩
  · rintro ⟨h, r⟩; exact ⟨h, r⟩

theorem scanQuoted_quote (s : Bytes) : scanQuoted (34 :: s) = some ([], s) := by
  rw [scanQuoted.eq_def]; simp

theorem scanQuoted_escape (c : UInt8) (s : Bytes) : scanQuoted (92 :: c :: s) =
    match scanQuoted s with
    | some (q, r) => some (92 :: c :: q, r)
    | none => none := by
  rw [scanQuoted.eq_def]
  simp only [if_neg (show ¬ (92 : UInt8) = 34 by decide), if_true]
  rcases scanQuoted s with _ | ⟨q, r⟩ <;> rfl

theorem scanQuoted_char (b : UInt8) (s : Bytes) (h : b ≠ 34) (h' : b ≠ 92) : scanQuoted (b :: s) =
    match scanQuoted s with
    | some (q, r) => some (b :: q, r)
    | none => none := by
  rw [scanQuoted.eq_def]
  simp only [if_neg h, if_neg h']
  rcases scanQuoted s with _ | ⟨q, r⟩ <;> rfl

theorem scanQuoted_closed {l : Bytes} (h : Closed l) (rest : Bytes) : scanQuoted (l ++ 34 :: rest) = some (l, rest) := by
  induction h with
  | nil => exact scanQuoted_quote _
  | char b h1 h2 _ ih => rw [List.cons_append, scanQuoted_char b _ h1 h2, ih]
  | escape c _ ih => rw [List.cons_append, List.cons_append, scanQuoted_escape, ih]

theorem scanQuoted_sound : ∀ (n : Nat) (s : Bytes), s.length ≤ n → ∀ q r, scanQuoted s = some (q, r) →
    Closed q ∧ s = q ++ 34 :: r := by
  intro n
  induction n with
  | zero =>
    intro s hs q r h
    cases s with
    | nil => simp [scanQuoted] at h
    | cons => simp at hs
  | succ n ih =>
    intro s hs q r h
    cases s with
    | nil => simp [scanQuoted] at h
    | cons b s =>
      simp only [List.length_cons] at hs
      by_cases h1 : b = 34
      · subst h1
        rw [scanQuoted_quote] at h
        simp only [Option.some.injEq, Prod.mk.injEq] at h
        obtain ⟨rfl, rfl⟩ := h
        exact ⟨.nil, rfl⟩
      · by_cases h2 : b = 92
        · subst h2
          cases s with
          | nil => rw [scanQuoted.eq_def] at h; simp at h
          | cons c s =>
            simp only [List.length_cons] at hs
            rw [scanQuoted_escape] at h
            cases hq : scanQuoted s with
            | none => rw [hq] at h; simp at h
            | some p =>
              obtain ⟨q', r'⟩ := p
              rw [hq] at h
              simp only [Option.some.injEq, Prod.mk.injEq] at h
              obtain ⟨rfl, rfl⟩ := h
              obtain ⟨hc, rfl⟩ := ih s (by omega) q' r' hq
              exact ⟨.escape c hc, rfl⟩
        · rw [scanQuoted_char b s h1 h2] at h
          cases hq : scanQuoted s with
          | none => rw [hq] at h; simp at h
          | some p =>
            obtain ⟨q', r'⟩ := p
            rw [hq] at h
            simp only [Option.some.injEq, Prod.mk.injEq] at h
            obtain ⟨rfl, rfl⟩ := h
            obtain ⟨hc, rfl⟩ := ih s (by omega) q' r' hq
            exact ⟨.char b h1 h2 hc, rfl⟩

theorem takeWhile_append_stop {p : UInt8 → Bool} {k : Bytes} (hk : ∀ b ∈ k, p b = true) (x : UInt8) (hx : p x = false)
    (s : Bytes) : (k ++ x :: s).takeWhile p = k ∧ (k ++ x :: s).dropWhile p = x :: s := by
  induction k with
  | nil => simp [hx]
  | cons b k ih =>
    have hb := hk b (by simp)
    have := ih (fun y hy => hk y (by simp [hy]))
    simp [hb, this.1, this.2]

theorem dropSpaces (n : Nat) (s : Bytes) (hs : s.head? ≠ some 32) :
    (List.replicate n (32 : UInt8) ++ s).dropWhile (· == 32) = s := by
  induction n with
  | zero =>
    cases s with
    | nil => rfl
    | cons b s =>
      simp only [List.head?_cons, ne_eq, Option.some.injEq] at hs
      simp [hs]
  | succ n ih => simpa [List.replicate_succ] using ih

theorem dropWhile_head? (s : Bytes) : (s.dropWhile (· == 32)).head? ≠ some 32 := by
  induction s with
  | nil => simp
  | cons b s ih =>
    by_cases hb : b = 32
    · simpa [hb] using ih
    · simp [hb]

theorem spaces_split (s : Bytes) : ∃ n, s = List.replicate n 32 ++ s.dropWhile (· == 32) := by
  induction s with
  | nil => exact ⟨0, rfl⟩
  | cons b s ih =>
    by_cases hb : b = 32
    · obtain ⟨n, hn⟩ := ih
      refine ⟨n + 1, ?_⟩
      simp only [hb, beq_self_eq_true, List.dropWhile_cons_of_pos, List.replicate_succ, List.cons_append]
      rw [← hn]
    · exact ⟨0, by simp [hb]⟩

/-- A pair at the head of the tag is taken or passed over. -/
theorem tagLookup_pair (key : Bytes) (p : TagPair) (hp : p.Ok) (fuel : Nat) (rest : Bytes) :
    tagLookup key (fuel + 1) (p.text ++ rest) =
      if key = p.key then unquote p.literal else tagLookup key fuel rest := by
  obtain ⟨n, k, l⟩ := p
  obtain ⟨⟨hne, hk⟩, hl⟩ := hp
  simp only at hne hk hl
  have hkb : ∀ b ∈ k, tagKeyByte b = true := fun b hb => (tagKeyByte_iff b).2 (hk b hb)
  have ht : TagPair.text ⟨n, k, l⟩ ++ rest = List.replicate n 32 ++ (k ++ 58 :: (34 :: (l ++ 34 :: rest))) := by
    simp [TagPair.text]
  have hd : (List.replicate n (32 : UInt8) ++ (k ++ 58 :: (34 :: (l ++ 34 :: rest)))).dropWhile (· == 32) =
      k ++ 58 :: (34 :: (l ++ 34 :: rest)) := by
    apply dropSpaces
    cases k with
    | nil => exact absurd rfl hne
    | cons b k =>
      have := (hk b (by simp)).1
      simp only [List.cons_append, List.head?_cons, ne_eq, Option.some.injEq]
      rintro rfl
      exact absurd this (by decide)
  obtain ⟨h1, h2⟩ := takeWhile_append_stop hkb 58 (by decide) (34 :: (l ++ 34 :: rest))
  rw [tagLookup, ht]
  simp only [hd, h1, h2, if_neg hne, scanQuoted_closed hl]

/-- Whatever is looked up, the tag begins with a pair. -/
theorem tagLookup_noPair (key : Bytes) (fuel : Nat) {tail : Bytes} (h : NoPair tail) : tagLookup key fuel tail = none := by
  cases fuel with
  | zero => rfl
  | succ fuel =>
    rw [tagLookup]
    by_cases hne : (tail.dropWhile (· == 32)).takeWhile tagKeyByte = []
    · rw [if_pos hne]
    · rw [if_neg hne]
      split
      · rename_i r hr
        cases hq : scanQuoted r with
        | none => rfl
        | some p =>
          exfalso
          obtain ⟨q, rest⟩ := p
          obtain ⟨hc, rfl⟩ := scanQuoted_sound _ r (Nat.le_refl _) q rest hq
          obtain ⟨n, hn⟩ := spaces_split tail
          refine h ⟨⟨n, (tail.dropWhile (· == 32)).takeWhile tagKeyByte, q⟩, ⟨⟨hne, ?_⟩, hc⟩, rest, ?_⟩
          · intro b hb
            refine (tagKeyByte_iff b).1 ?_
            simp only at hb
            revert hb
            generalize tail.dropWhile (· == 32) = t
            intro hb
            induction t with
            | nil => simp at hb
            | cons x t ih =>
              by_cases hx : tagKeyByte x = true
              · rw [List.takeWhile_cons_of_pos hx] at hb
                rcases List.mem_cons.mp hb with rfl | hb
                · exact hx
                · exact ih hb
              · rw [List.takeWhile_cons_of_neg hx] at hb
                simp at hb
          · have h3 := List.takeWhile_append_dropWhile (p := tagKeyByte) (l := tail.dropWhile (· == 32))
            rw [hr] at h3
            simp only [TagPair.text, List.append_assoc]
            conv => rhs; rw [hn, ← h3]
            simp
      · rfl

/-! the literals -/

theorem hexDigits_sound : ∀ (k acc : Nat) (s : Bytes) (v : Nat) (r : Bytes), hexDigits k acc s = some (v, r) →
    ∃ u, s = u ++ r ∧ u.length = k ∧ ∀ w, HexNum w acc → HexNum (w ++ u) v
  | 0, acc, s, v, r, h => by
    simp only [hexDigits, Option.some.injEq, Prod.mk.injEq] at h
    obtain ⟨rfl, rfl⟩ := h
    exact ⟨[], rfl, rfl, fun w hw => by simpa using hw⟩
  | k + 1, acc, [], v, r, h => by simp [hexDigits] at h
  | k + 1, acc, b :: s, v, r, h => by
    rw [hexDigits] at h
    cases hb : hexValue b with
    | none => rw [hb] at h; simp at h
    | some d =>
      rw [hb] at h
      obtain ⟨u, rfl, hl, hu⟩ := hexDigits_sound k _ s v r h
      refine ⟨b :: u, rfl, by simp [hl], fun w hw => ?_⟩
      have h1 := hu (w ++ [b]) (by
        rw [Nat.mul_comm 16 acc]
        exact .snoc b d hw ((hexValue_iff b d).1 hb))
      simpa using h1

theorem HexNum.snoc_inv {w : Bytes} {b : UInt8} {v : Nat} (h : HexNum (w ++ [b]) v) :
    ∃ n x, HexNum w n ∧ HexDig b x ∧ v = n * 16 + x := by
  generalize hs : w ++ [b] = s at h
  cases h with
  | nil => simp at hs
  | snoc d x h1 h2 =>
    obtain ⟨rfl, h3⟩ := List.append_inj' hs rfl
    simp only [List.cons.injEq, and_true] at h3
    subst h3
    exact ⟨_, _, h1, h2, rfl⟩

theorem HexDig.unique {b : UInt8} {x y : Nat} (h : HexDig b x) (h' : HexDig b y) : x = y := by
  rw [← hexValue_iff] at h h'
  rw [h] at h'
  exact Option.some.inj h'

theorem HexNum.unique {u : Bytes} {x : Nat} (h : HexNum u x) : ∀ {y}, HexNum u y → x = y := by
  induction h with
  | nil =>
    intro y h
    generalize hs : ([] : Bytes) = s at h
    cases h with
    | nil => rfl
    | snoc => simp at hs
  | snoc d x _ hd ih =>
    intro y h
    obtain ⟨n, z, h1, h2, rfl⟩ := HexNum.snoc_inv h
    rw [ih h1, HexDig.unique hd h2]

theorem hexDigits_complete : ∀ (u w : Bytes) (acc v : Nat) (r : Bytes), HexNum w acc → HexNum (w ++ u) v →
    hexDigits u.length acc (u ++ r) = some (v, r)
  | [], w, acc, v, r, hw, h => by
    rw [List.append_nil] at h
    simp only [List.length_nil, hexDigits, List.nil_append]
    rw [HexNum.unique hw h]
  | b :: u, w, acc, v, r, hw, h => by
    have hb : ∃ x, HexDig b x := by
      clear hw
      have : ∀ (m : Nat) (u : Bytes), u.length = m → ∀ v, HexNum (w ++ b :: u) v → ∃ x, HexDig b x := by
        intro m
        induction m with
        | zero =>
          intro u hu v h
          rw [List.length_eq_zero_iff] at hu
          subst hu
          obtain ⟨_, x, _, h2, _⟩ := HexNum.snoc_inv h
          exact ⟨x, h2⟩
        | succ m ih =>
          intro u hu v h
          rcases List.eq_nil_or_concat u with rfl | ⟨u', c, rfl⟩
          · simp at hu
          · rw [List.concat_eq_append, ← List.cons_append, ← List.append_assoc] at h
            obtain ⟨_, x, h1, _, _⟩ := HexNum.snoc_inv h
            exact ih u' (by simpa using hu) _ h1
      exact this _ u rfl v h
    obtain ⟨x, hx⟩ := hb
    simp only [List.length_cons, List.cons_append, hexDigits, (hexValue_iff b x).2 hx]
    refine hexDigits_complete u (w ++ [b]) _ v r ?_ (by simpa using h)
    rw [Nat.mul_comm 16 acc]
    exact .snoc b x hw hx

/-- What follows a backslash, and the bytes it stands for. -/
inductive Esc : Bytes → Bytes → Prop
  | short (c x : UInt8) : (c, x) ∈ goEscapes → Esc [c] [x]
  | hex {u : Bytes} (n : Nat) : HexNum u n → u.length = 2 → Esc (120 :: u) [UInt8.ofNat n]
  | octal (a b c : UInt8) (x y z : Nat) : OctDig a x → OctDig b y → OctDig c z → x * 64 + y * 8 + z < 256 →
      Esc [a, b, c] [UInt8.ofNat (x * 64 + y * 8 + z)]
  | small {u : Bytes} (r : Nat) : HexNum u r → u.length = 4 → Scalar r → Esc (117 :: u) (utf8 r)
  | big {u : Bytes} (r : Nat) : HexNum u r → u.length = 8 → Scalar r → Esc (85 :: u) (utf8 r)

theorem Esc.literal {u x s t : Bytes} (h : Esc u x) (hs : GoLiteral s t) : GoLiteral (92 :: (u ++ s)) (x ++ t) := by
  cases h with
  | short c x hc => exact .short c x hc hs
  | hex n h1 h2 => exact .hex n h1 h2 hs
  | octal a b c x y z h1 h2 h3 h4 => exact .octal a b c x y z h1 h2 h3 h4 hs
  | small r h1 h2 h3 => exact .small r h1 h2 h3 hs
  | big r h1 h2 h3 => exact .big r h1 h2 h3 hs

theorem octDig_of {c : UInt8} (h : 48 ≤ c) (h' : c ≤ 55) : OctDig c (c.toNat - 48) := by
  rw [UInt8.le_iff_toNat_le] at h h'
  simp only [UInt8.reduceToNat] at h h'
  exact ⟨by omega, by omega⟩

theorem OctDig.bounds {c : UInt8} {x : Nat} (h : OctDig c x) : 48 ≤ c ∧ c ≤ 55 ∧ c.toNat - 48 = x := by
  obtain ⟨h1, h2⟩ := h
  rw [UInt8.le_iff_toNat_le, UInt8.le_iff_toNat_le]
  simp only [UInt8.reduceToNat]
  omega

theorem unquoteEscape_cons (c : UInt8) (s : Bytes) : unquoteEscape (c :: s) =
    if c = 97 then some ([7], s)
    else if c = 98 then some ([8], s)
    else if c = 102 then some ([12], s)
    else if c = 110 then some ([10], s)
    else if c = 114 then some ([13], s)
    else if c = 116 then some ([9], s)
    else if c = 118 then some ([11], s)
    else if c = 92 ∨ c = 34 then some ([c], s)
    else if c = 120 then
      match hexDigits 2 0 s with
      | some (v, r) => some ([UInt8.ofNat v], r)
      | none => none
    else if c = 117 ∨ c = 85 then
      match hexDigits (if c = 117 then 4 else 8) 0 s with
      | some (v, r) => if v < 0x110000 ∧ ¬ (0xD800 ≤ v ∧ v < 0xE000) then some (utf8Encode v, r) else none
      | none => none
    else if 48 ≤ c ∧ c ≤ 55 then
      match s with
      | d :: e :: r =>
        if 48 ≤ d ∧ d ≤ 55 ∧ 48 ≤ e ∧ e ≤ 55 then
          let v := 64 * (c.toNat - 48) + 8 * (d.toNat - 48) + (e.toNat - 48)
          if v ≤ 255 then some ([UInt8.ofNat v], r) else none
        else none
      | _ => none
    else none := rfl

theorem unquoteEscape_sound {s x r : Bytes} (h : unquoteEscape s = some (x, r)) : ∃ u, s = u ++ r ∧ Esc u x := by
  cases s with
  | nil => simp [unquoteEscape] at h
  | cons c s =>
    have short : ∀ y, (c, y) ∈ goEscapes → some ([y], s) = some (x, r) → ∃ u, c :: s = u ++ r ∧ Esc u x := by
      intro y hy h
      simp only [Option.some.injEq, Prod.mk.injEq] at h
      obtain ⟨rfl, rfl⟩ := h
      exact ⟨[c], rfl, .short c y hy⟩
    rw [unquoteEscape_cons] at h
    by_cases hc : c = 97
    · rw [if_pos hc] at h
      exact short 7 (by rw [hc]; decide) h
    rw [if_neg hc] at h; clear hc
    by_cases hc : c = 98
    · rw [if_pos hc] at h
      exact short 8 (by rw [hc]; decide) h
    rw [if_neg hc] at h; clear hc
    by_cases hc : c = 102
    · rw [if_pos hc] at h
      exact short 12 (by rw [hc]; decide) h
    rw [if_neg hc] at h; clear hc
    by_cases hc : c = 110
    · rw [if_pos hc] at h
      exact short 10 (by rw [hc]; decide) h
    rw [if_neg hc] at h; clear hc
    by_cases hc : c = 114
    · rw [if_pos hc] at h
      exact short 13 (by rw [hc]; decide) h
    rw [if_neg hc] at h; clear hc
    by_cases hc : c = 116
    · rw [if_pos hc] at h
      exact short 9 (by rw [hc]; decide) h
    rw [if_neg hc] at h; clear hc
    by_cases hc : c = 118
    · rw [if_pos hc] at h
      exact short 11 (by rw [hc]; decide) h
    rw [if_neg hc] at h; clear hc
    by_cases hc : c = 92 ∨ c = 34
    · rw [if_pos hc] at h
      exact short c (by rcases hc with rfl | rfl <;> decide) h
    rw [if_neg hc] at h; clear hc
    by_cases hc : c = 120
    · rw [if_pos hc] at h
      subst hc
      split at h
      · rename_i v r' hv
        simp only [Option.some.injEq, Prod.mk.injEq] at h
        obtain ⟨rfl, rfl⟩ := h
        obtain ⟨u, rfl, hl, hu⟩ := hexDigits_sound _ _ _ _ _ hv
        exact ⟨120 :: u, rfl, .hex v (by simpa using hu [] .nil) hl⟩
      · cases h
    rw [if_neg hc] at h; clear hc
    by_cases hc : c = 117 ∨ c = 85
    · rw [if_pos hc] at h
      split at h
      · rename_i v r' hv
        split at h
        · rename_i hs
          simp only [Option.some.injEq, Prod.mk.injEq] at h
          obtain ⟨rfl, rfl⟩ := h
          obtain ⟨u, rfl, hl, hu⟩ := hexDigits_sound _ _ _ _ _ hv
          have hu := hu [] .nil
          rw [List.nil_append] at hu
          refine ⟨c :: u, rfl, ?_⟩
          rw [utf8Encode_eq]
          rcases hc with rfl | rfl
          · exact .small v hu hl hs
          · exact .big v hu hl hs
        · cases h
      · cases h
    rw [if_neg hc] at h; clear hc
    by_cases hc : 48 ≤ c ∧ c ≤ 55
    · rw [if_pos hc] at h
      split at h
      · rename_i d e r'
        split at h
        · rename_i hd
          simp only at h
          split at h
          · rename_i hv
            simp only [Option.some.injEq, Prod.mk.injEq] at h
            obtain ⟨rfl, rfl⟩ := h
            refine ⟨[c, d, e], rfl, ?_⟩
            have := Esc.octal c d e _ _ _ (octDig_of hc.1 hc.2) (octDig_of hd.1 hd.2.1) (octDig_of hd.2.2.1 hd.2.2.2)
              (by omega)
            rw [Nat.mul_comm 64, Nat.mul_comm 8]
            exact this
          · cases h
        · cases h
      · cases h
    rw [if_neg hc] at h
    cases h

theorem unquoteEscape_complete {u x : Bytes} (h : Esc u x) (r : Bytes) : unquoteEscape (u ++ r) = some (x, r) := by
  cases h with
  | short c x hc =>
    simp only [goEscapes, List.mem_cons, Prod.mk.injEq, List.not_mem_nil, or_false] at hc
    rcases hc with ⟨rfl, rfl⟩ | ⟨rfl, rfl⟩ | ⟨rfl, rfl⟩ | ⟨rfl, rfl⟩ | ⟨rfl, rfl⟩ | ⟨rfl, rfl⟩ | ⟨rfl, rfl⟩ | ⟨rfl, rfl⟩ | ⟨rfl, rfl⟩ <;>
      rfl
  | @hex u n h1 h2 =>
    have := hexDigits_complete u [] 0 n r .nil (by simpa using h1)
    rw [h2] at this
    simp [unquoteEscape, this]
  | octal a b c x y z h1 h2 h3 h4 =>
    obtain ⟨ha, ha', hx⟩ := OctDig.bounds h1
    obtain ⟨hb, hb', hy⟩ := OctDig.bounds h2
    obtain ⟨hc, hc', hz⟩ := OctDig.bounds h3
    have hne : ∀ n : UInt8, 56 ≤ n.toNat → a ≠ n := by
      rintro n hn rfl
      rw [UInt8.le_iff_toNat_le] at ha'
      simp only [UInt8.reduceToNat] at ha'
      omega
    have h34 : ¬ a = 34 := by
      rintro rfl
      exact absurd ha (by decide)
    simp only [List.cons_append, List.nil_append]
    rw [unquoteEscape_cons, if_neg (hne _ (by decide)), if_neg (hne _ (by decide)), if_neg (hne _ (by decide)),
      if_neg (hne _ (by decide)), if_neg (hne _ (by decide)), if_neg (hne _ (by decide)), if_neg (hne _ (by decide)),
      if_neg (by rintro (h | h); exact hne _ (by decide) h; exact h34 h), if_neg (hne _ (by decide)),
      if_neg (by rintro (h | h); exact hne _ (by decide) h; exact hne _ (by decide) h), if_pos ⟨ha, ha'⟩]
    simp only [if_pos (show 48 ≤ b ∧ b ≤ 55 ∧ 48 ≤ c ∧ c ≤ 55 from ⟨hb, hb', hc, hc'⟩), hx, hy, hz]
    rw [if_pos (by omega), Nat.mul_comm 64, Nat.mul_comm 8]
  | @small u v h1 h2 h3 =>
    have := hexDigits_complete u [] 0 v r .nil (by simpa using h1)
    rw [h2] at this
    simp only [List.cons_append]
    rw [unquoteEscape_cons]
    simp (config := { decide := true }) only [if_false, if_true]
    rw [this]
    simp only
    rw [if_pos (show v < 0x110000 ∧ ¬ (0xD800 ≤ v ∧ v < 0xE000) from h3), utf8Encode_eq]
  | @big u v h1 h2 h3 =>
    have := hexDigits_complete u [] 0 v r .nil (by simpa using h1)
    rw [h2] at this
    simp only [List.cons_append]
    rw [unquoteEscape_cons]
    simp (config := { decide := true }) only [if_false, if_true]
    rw [this]
    simp only
    rw [if_pos (show v < 0x110000 ∧ ¬ (0xD800 ≤ v ∧ v < 0xE000) from h3), utf8Encode_eq]

theorem Esc.ne_nil {u x : Bytes} (h : Esc u x) : u ≠ [] := by cases h <;> simp

theorem unquoteAux_sound : ∀ (fuel : Nat) (s t : Bytes), s.length ≤ fuel → unquoteAux fuel s = some t → GoLiteral s t := by
  intro fuel
  induction fuel with
  | zero =>
    intro s t hl h
    simp only [Nat.le_zero, List.length_eq_zero_iff] at hl
    subst hl
    simp only [unquoteAux, Option.some.injEq] at h
    subst h
    exact .nil
  | succ fuel ih =>
    intro s t hl h
    cases s with
    | nil =>
      simp only [unquoteAux, Option.some.injEq] at h
      subst h
      exact .nil
    | cons b rest =>
      simp only [List.length_cons] at hl
      rw [unquoteAux] at h
      split at h
      · cases h
      rename_i hq
      simp only [not_or] at hq
      split at h
      · rename_i hb
        subst hb
        split at h
        · rename_i x r hx
          simp only [Option.map_eq_some_iff] at h
          obtain ⟨t', h, rfl⟩ := h
          obtain ⟨u, rfl, hu⟩ := unquoteEscape_sound hx
          simp only [List.length_append] at hl
          exact Esc.literal hu (ih _ _ (by omega) h)
        · cases h
      rename_i h92
      have hne : ∀ n : Nat, n < 256 → b ≠ UInt8.ofNat n → b.toNat ≠ n := by
        intro n hn hb he
        exact hb (by rw [← he]; simp)
      split at h
      · rename_i h128
        have h128' : b.toNat < 128 := by simpa [UInt8.lt_iff_toNat_lt] using h128
        simp only [Option.map_eq_some_iff] at h
        obtain ⟨t', h, rfl⟩ := h
        have := GoLiteral.char b.toNat ⟨by omega, by omega⟩ (hne 34 (by omega) hq.1) (hne 92 (by omega) h92)
          (hne 10 (by omega) hq.2) (ih _ _ (by omega) h)
        rw [utf8_small h128'] at this
        simpa using this
      · rename_i h128
        have h128' : 128 ≤ b.toNat := by simpa [UInt8.lt_iff_toNat_lt] using h128
        split at h
        · rename_i w hw
          simp only [Option.map_eq_some_iff] at h
          obtain ⟨t', h, rfl⟩ := h
          obtain ⟨r, hr, htake, hlen⟩ := runeWidth_sound hw
          have hb : 128 ≤ r := by
            rcases Nat.lt_or_ge r 128 with hlt | hge
            · rw [utf8_small hlt] at htake hlen
              rw [hlen] at htake
              simp only [List.length_singleton, List.take_succ_cons, List.take_zero, List.cons.injEq, and_true] at htake
              rw [htake, u8nat _ (by omega)] at h128'
              omega
            · exact hge
          have hpos : 0 < w := by
            rw [hlen]
            exact List.length_pos_iff.2 (utf8_ne_nil r)
          have := GoLiteral.char r hr (by omega) (by omega) (by omega)
            (ih _ _ (by simp only [List.length_drop, List.length_cons]; omega) h)
          rw [← htake, List.take_append_drop] at this
          exact this
        · rename_i hw
          simp only [Option.map_eq_some_iff] at h
          obtain ⟨t', h, rfl⟩ := h
          rw [replacement_eq]
          exact .broken b (fun r hr => runeWidth_none hw r hr) (ih _ _ (by omega) h)

theorem unquoteAux_esc {u x s t : Bytes} (hu : Esc u x) (ih : ∀ fuel, s.length ≤ fuel → unquoteAux fuel s = some t)
    (fuel : Nat) (hf : (92 :: (u ++ s)).length ≤ fuel) : unquoteAux fuel (92 :: (u ++ s)) = some (x ++ t) := by
  cases fuel with
  | zero => simp at hf
  | succ f =>
    simp only [List.length_cons, List.length_append] at hf
    rw [unquoteAux, if_neg (by decide), if_pos rfl, unquoteEscape_complete hu]
    simp only
    rw [ih f (by omega)]
    rfl

theorem unquoteAux_complete {s t : Bytes} (h : GoLiteral s t) : ∀ fuel, s.length ≤ fuel → unquoteAux fuel s = some t := by
  induction h with
  | nil => intro fuel _; cases fuel <;> rfl
  | @char s t r hr h34 h92 h10 _ ih =>
    intro fuel hf
    cases fuel with
    | zero => simp at hf; exact absurd hf.1 (utf8_ne_nil r)
    | succ f =>
      rcases Nat.lt_or_ge r 128 with hlt | hge
      · rw [utf8_small hlt] at hf ⊢
        have hn := u8nat r (by omega)
        have hne : ∀ n : UInt8, r ≠ n.toNat → UInt8.ofNat r ≠ n := by
          intro n h1 h2
          rw [← h2, hn] at h1
          exact h1 rfl
        rw [List.singleton_append, unquoteAux]
        rw [if_neg (fun h => h.elim (hne 34 h34) (hne 10 h10)), if_neg (hne 92 h92),
          if_pos (by rw [UInt8.lt_iff_toNat_lt, hn]; exact hlt), ih f (by simpa using hf)]
        rfl
      · obtain ⟨b, u, hu, hb⟩ := utf8_big hge hr.1
        have hw := runeWidth_complete hr s
        have hne : ∀ n : UInt8, n.toNat < 128 → b ≠ n := by
          rintro n h1 rfl
          omega
        rw [hu] at hf hw ⊢
        rw [List.cons_append, unquoteAux]
        rw [if_neg (fun h => h.elim (hne 34 (by decide)) (hne 10 (by decide))), if_neg (hne 92 (by decide)),
          if_neg (by rw [UInt8.lt_iff_toNat_lt]; simp; omega)]
        rw [List.cons_append] at hw
        rw [hw]
        simp only []
        have : (b :: (u ++ s)).drop (b :: u).length = s := by rw [← List.cons_append]; simp
        rw [this, ih f (by simp at hf; omega)]
        rw [← List.cons_append, List.take_left']
        · rfl
        · rfl
  | @broken s t b hb _ ih =>
    intro fuel hf
    cases fuel with
    | zero => simp at hf
    | succ f =>
      have h128 : 128 ≤ b.toNat := by
        rcases Nat.lt_or_ge b.toNat 128 with hlt | hge
        · exact absurd ⟨s, by rw [utf8_small hlt]; simp⟩ (hb b.toNat ⟨by omega, by omega⟩)
        · exact hge
      have hne : ∀ n : UInt8, n.toNat < 128 → b ≠ n := by
        rintro n h1 rfl
        omega
      rw [unquoteAux]
      rw [if_neg (fun h => h.elim (hne 34 (by decide)) (hne 10 (by decide))), if_neg (hne 92 (by decide)),
          if_neg (by rw [UInt8.lt_iff_toNat_lt]; simp; omega)]
      cases hw : runeWidth (b :: s) with
      | some w =>
        obtain ⟨r, hr, htake, -⟩ := runeWidth_sound hw
        exact absurd (htake ▸ List.take_prefix w (b :: s)) (hb r hr)
      | none =>
        simp only []
        rw [ih f (by simpa using hf), replacement_eq]
        rfl
  | short c x hc _ ih => exact unquoteAux_esc (.short c x hc) ih
  | hex n h1 h2 _ ih => exact unquoteAux_esc (.hex n h1 h2) ih
  | octal a b c x y z h1 h2 h3 h4 _ ih => exact unquoteAux_esc (.octal a b c x y z h1 h2 h3 h4) ih
  | small r h1 h2 h3 _ ih => exact unquoteAux_esc (.small r h1 h2 h3) ih
  | big r h1 h2 h3 _ ih => exact unquoteAux_esc (.big r h1 h2 h3) ih

theorem unquote_iff (s t : Bytes) : unquote s = some t ↔ GoLiteral s t :=
  ⟨fun h => unquoteAux_sound _ _ _ (Nat.le_refl _) h, fun h => unquoteAux_complete h _ (Nat.le_refl _)⟩

/-! the whole tag -/

theorem TagPair.text_length (p : TagPair) (h : p.Ok) : 0 < p.text.length := by
  simp only [TagPair.text, List.length_append, List.length_cons, List.length_nil]
  omega

/-- Every byte string is some pairs and then something that is not a pair. -/
theorem tag_split (tag : Bytes) : ∃ ps tail, tag = tagText ps ++ tail ∧ (∀ p ∈ ps, p.Ok) ∧ NoPair tail := by
  have : ∀ n (tag : Bytes), tag.length ≤ n →
      ∃ ps tail, tag = tagText ps ++ tail ∧ (∀ p ∈ ps, p.Ok) ∧ NoPair tail := by
    intro n
    induction n with
    | zero =>
      intro tag h
      simp only [Nat.le_zero, List.length_eq_zero_iff] at h
      subst h
      refine ⟨[], [], rfl, by simp, ?_⟩
      rintro ⟨p, hp, hpre⟩
      have := TagPair.text_length p hp
      rw [List.prefix_nil] at hpre
      rw [hpre] at this
      simp at this
    | succ n ih =>
      intro tag h
      by_cases hn : NoPair tag
      · exact ⟨[], tag, rfl, by simp, hn⟩
      · simp only [NoPair, Classical.not_not] at hn
        obtain ⟨p, hp, rest, rfl⟩ := hn
        have := TagPair.text_length p hp
        simp only [List.length_append] at h
        obtain ⟨ps, tail, rfl, h1, h2⟩ := ih rest (by omega)
        exact ⟨p :: ps, tail, by simp [tagText], by simpa [hp] using h1, h2⟩
  exact this _ tag (Nat.le_refl _)

theorem tagLookup_pairs (key : Bytes) (ps : List TagPair) (hp : ∀ p ∈ ps, p.Ok ∧ p.key ≠ key) (rest : Bytes) :
    ∀ fuel, ps.length ≤ fuel → tagLookup key fuel (tagText ps ++ rest) = tagLookup key (fuel - ps.length) rest := by
  induction ps with
  | nil => intro fuel _; simp [tagText]
  | cons p ps ih =>
    intro fuel hf
    cases fuel with
    | zero => simp at hf
    | succ fuel =>
      have h1 := hp p (by simp)
      have : tagText (p :: ps) ++ rest = p.text ++ (tagText ps ++ rest) := by simp [tagText]
      rw [this, tagLookup_pair key p h1.1, if_neg (Ne.symm h1.2),
        ih (fun q hq => hp q (by simp [hq])) fuel (by simpa using hf)]
      congr 1
      simp

theorem tagText_length (ps : List TagPair) (hp : ∀ p ∈ ps, p.Ok) : ps.length ≤ (tagText ps).length := by
  induction ps with
  | nil => simp
  | cons p ps ih =>
    have h1 := TagPair.text_length p (hp p (by simp))
    have h2 := ih (fun q hq => hp q (by simp [hq]))
    have : tagText (p :: ps) = p.text ++ tagText ps := by simp [tagText]
    rw [this, List.length_append, List.length_cons]
    omega

end Verif.Props
