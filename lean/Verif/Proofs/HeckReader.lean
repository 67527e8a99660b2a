import Verif.Model.HeckReader
import Verif.Proofs.HeckRunes
/-!
# The reader of heck.go walks along the runes
-/
namespace Verif
open Spec

@[simp] theorem Res.ok_bind {α β : Type} (a : α) (f : α → Res β) : (Res.ok a >>= f) = f a := rfl
@[simp] theorem Res.err_bind {α β : Type} (e : Err) (f : α → Res β) : (Res.err e >>= f) = .err e := rfl
@[simp] theorem Res.panic_bind {α β : Type} (f : α → Res β) : (Res.panic >>= f) = .panic := rfl
@[simp] theorem Res.pure_eq {α : Type} (a : α) : (pure a : Res α) = .ok a := rfl

theorem split_runes (s : Bytes) : splitStringByRune s = (runesOf s).map (·.1) := by
  have : ∀ (l : List (Nat × Bytes)) (acc : List Nat), l.foldl (fun res r => res ++ [r.1]) acc = acc ++ l.map (·.1) := by
    intro l
    induction l with
    | nil => simp
    | cons r l ih => intro acc; simp [ih]
  have h := this (runesOf s) []
  rw [List.nil_append] at h
  exact h

/-- The reader that has passed the runes `pre`. -/
def passed (pre rest : List Nat) : Reader := { runes := pre ++ rest, index := (pre.length : Int) - 1 }

theorem passed_start (s : Bytes) : newReader s = passed [] ((runesOf s).map (·.1)) := by
  simp [newReader, passed, split_runes]

theorem passed_hasNext (pre rest : List Nat) : (passed pre rest).hasNext = !rest.isEmpty := by
  cases rest with
  | nil => simp [Reader.hasNext, passed]
  | cons c rest => simp [Reader.hasNext, passed]; omega

theorem passed_move_nil (pre : List Nat) : (passed pre []).move = (false, passed pre []) := by
  simp [Reader.move, passed_hasNext]

theorem passed_move (pre : List Nat) (c : Nat) (rest : List Nat) : (passed pre (c :: rest)).move = (true, passed (pre ++ [c]) rest) := by
  simp only [Reader.move, passed_hasNext]
  simp [passed]

theorem passed_at (pre : List Nat) (c : Nat) (rest : List Nat) : (passed pre (c :: rest)).at pre.length = .ok c := by
  unfold Reader.at
  rw [if_pos (by simp [passed]; omega)]
  simp [passed]

theorem passed_this (pre : List Nat) (c : Nat) (rest : List Nat) : (passed (pre ++ [c]) rest).this = .ok (pre.length, c) := by
  have h : passed (pre ++ [c]) rest = { passed pre (c :: rest) with index := pre.length } := by simp [passed]
  simp only [Reader.this, h]
  have := passed_at pre c rest
  simp only [Reader.at] at this ⊢
  rw [this]
  simp

theorem passed_peek_nil (pre : List Nat) : (passed pre []).peek = .ok (-1, 0) := by simp [Reader.peek, passed_hasNext]

theorem passed_peek (pre : List Nat) (c : Nat) (rest : List Nat) : (passed pre (c :: rest)).peek = .ok (pre.length, c) := by
  simp only [Reader.peek, passed_hasNext, List.isEmpty_cons, Bool.not_false, if_true]
  have h : (passed pre (c :: rest)).index + 1 = pre.length := by simp [passed]
  rw [h, passed_at]
  simp

theorem passed_peekNext (pre rest : List Nat) : (passed pre rest).peekNext = .ok (rest.headD 0) := by
  cases rest with
  | nil => simp [Reader.peekNext, passed_hasNext]
  | cons c rest =>
    simp only [Reader.peekNext, passed_hasNext, List.isEmpty_cons, Bool.not_false, if_true]
    have h : (passed pre (c :: rest)).index + 1 = pre.length := by simp [passed]
    rw [h, passed_at]
    simp

theorem passed_next_nil (pre : List Nat) : (passed pre []).next = .ok ((-1, 0), passed pre []) := by simp [Reader.next, passed_hasNext]

theorem passed_next (pre : List Nat) (c : Nat) (rest : List Nat) :
    (passed pre (c :: rest)).next = .ok ((pre.length, c), passed (pre ++ [c]) rest) := by
  simp only [Reader.next, passed_hasNext, List.isEmpty_cons, Bool.not_false, if_true]
  have h : ({ passed pre (c :: rest) with index := (passed pre (c :: rest)).index + 1 } : Reader) = passed (pre ++ [c]) rest := by
    simp [passed]
  have hi : (passed pre (c :: rest)).index + 1 = pre.length := by simp [passed]
  have h2 : (passed (pre ++ [c]) rest).at pre.length = .ok c := by
    have := passed_at pre c rest
    simpa [Reader.at, passed] using this
  rw [h, hi, h2]
  simp

theorem sliceAt_eq (s : Bytes) (lo hi : Nat) : sliceAt s lo hi = goSlice s lo hi := by
  simp only [sliceAt, goSlice]
  by_cases h : lo ≤ hi ∧ hi ≤ s.length
  · rw [if_pos (by omega), if_pos h]
    simp only [Int.toNat_natCast]
    rw [show ((hi : Int) - lo).toNat = hi - lo by omega]
  · rw [if_neg (by omega), if_neg h]

theorem wordLoop_eq (U : Uni) (ww : Bytes → Res Bytes) (sep word : Bytes) : ∀ (rest pre : List Nat) (fuel : Nat), rest.length < fuel →
    ∀ (init : Nat) (mode : WordMode) (first : Bool) (out : Bytes),
    (wordLoop U ww sep word fuel (passed pre rest) { init, mode, first, out } >>= fun v => .ok (v.first, v.out)) =
      heckWord U ww sep word rest pre.length init mode first out
  | [], pre, fuel + 1, _, init, mode, first, out => by simp [wordLoop, passed_move_nil, heckWord]
  | c :: rest, pre, fuel + 1, hf, init, mode, first, out => by
    have ih := wordLoop_eq U ww sep word rest (pre ++ [c]) fuel (by simpa using hf)
    simp only [List.length_append, List.length_cons, List.length_nil, Nat.zero_add] at ih
    rw [wordLoop, passed_move]
    simp only [wordRound, passed_this, Res.ok_bind]
    rw [heckWord.eq_def]
    simp only []
    by_cases hc : c = 95
    · rw [if_pos hc, if_pos hc]
      simp only [Res.pure_eq]
      by_cases hi : init = pre.length
      · subst hi
        simp only [if_true]
        exact ih (pre.length + 1) mode first out
      · rw [if_neg (by omega), if_neg hi]
        exact ih init mode first out
    rw [if_neg hc, if_neg hc]
    cases rest with
    | nil =>
      simp only [passed_peek_nil, Res.ok_bind, ne_eq, not_true_eq_false, if_false, heckEmit]
      cases first <;> simp only [Bool.not_true, Bool.not_false, Bool.false_eq_true, if_true, if_false, WordVars.write, sliceAt_eq]
      all_goals
        cases goSlice word init word.length with
        | ok p =>
          simp only [Res.ok_bind]
          cases ww p <;> simp
        | err x => simp
        | panic => simp
    | cons next rest =>
      simp only [passed_peek, Res.ok_bind, List.length_append, List.length_cons, List.length_nil, Nat.zero_add]
      rw [if_pos (by omega)]
      generalize hm : (if U.isLower c = true then WordMode.lowercase else if U.isUpper c = true then .uppercase else mode) = nm
      by_cases h1 : next = 95 ∨ nm = .lowercase ∧ U.isUpper next = true
      · rw [if_pos h1, if_pos h1]
        simp only [heckEmit]
        have hs := sliceAt_eq word init (pre.length + 1)
        cases first <;> simp only [Bool.not_true, Bool.not_false, Bool.false_eq_true, if_true, if_false, WordVars.write, hs]
        all_goals
          cases goSlice word init (pre.length + 1) with
          | ok p =>
            simp only [Res.ok_bind]
            cases ww p with
            | ok t =>
              simp only [Res.ok_bind, Res.pure_eq, List.append_nil]
              exact ih _ _ _ _
            | err x => simp
            | panic => simp
          | err x => simp
          | panic => simp
      rw [if_neg h1, if_neg h1]
      by_cases h2 : mode = .uppercase ∧ U.isUpper c = true ∧ U.isLower next = true
      · rw [if_pos h2, if_pos h2]
        simp only [heckEmit]
        have hs := sliceAt_eq word init pre.length
        cases first <;> simp only [Bool.not_true, Bool.not_false, Bool.false_eq_true, if_true, if_false, WordVars.write, hs]
        all_goals
          cases goSlice word init pre.length with
          | ok p =>
            simp only [Res.ok_bind]
            cases ww p with
            | ok t =>
              simp only [Res.ok_bind, Res.pure_eq, List.append_nil]
              exact ih _ _ _ _
            | err x => simp
            | panic => simp
          | err x => simp
          | panic => simp
      rw [if_neg h2, if_neg h2]
      simp only [Res.pure_eq]
      exact ih _ _ _ _

theorem wordsLoop_eq (U : Uni) (ww : Bytes → Res Bytes) (sep : Bytes) : ∀ (ws : List Bytes) (first : Bool) (out : Bytes),
    wordsLoop U ww sep ws first out = heckWords U ww sep ws first out
  | [], _, _ => rfl
  | w :: ws, first, out => by
    have h := wordLoop_eq U ww sep w ((runesOf w).map (·.1)) [] ((newReader w).runes.length + 1)
      (by rw [passed_start]; simp [passed]) 0 .boundary first out
    rw [← passed_start] at h
    simp only [List.length_nil, Int.natCast_zero] at h
    simp only [wordsLoop, heckWords]
    rw [← h]
    show (wordLoop U ww sep w ((newReader w).runes.length + 1) (newReader w) { init := 0, mode := .boundary, first, out } >>= fun v => _) = _
    cases wordLoop U ww sep w ((newReader w).runes.length + 1) (newReader w) { init := ((0 : Nat) : Int), mode := .boundary, first, out } with
    | ok v => simp only [Res.ok_bind]; exact wordsLoop_eq U ww sep ws v.first v.out
    | err x => rfl
    | panic => rfl

/-- The runes of a string are Unicode scalar values. -/
theorem runes_scalar (s : Bytes) : ∀ r ∈ (runesOf s).map (·.1), Scalar r := by
  have : ∀ (f : Nat) (s : Bytes), ∀ r ∈ runesAux f s, Scalar r.1 := by
    intro f
    induction f with
    | zero => intro s r hr; cases hr
    | succ f ih =>
      intro s r hr
      cases s with
      | nil => cases hr
      | cons b rest =>
        simp only [runesAux] at hr
        split at hr
        · rename_i w hw
          obtain ⟨x, hx, hu, -⟩ := runeWidth_sound hw
          rcases List.mem_cons.1 hr with rfl | hr
          · show Scalar (runeValue _)
            rw [hu, runeValue_utf8 hx]; exact hx
          · exact ih _ _ hr
        · rcases List.mem_cons.1 hr with rfl | hr
          · exact scalar_replacement
          · exact ih _ _ hr
  intro r hr
  obtain ⟨p, hp, rfl⟩ := List.mem_map.1 hr
  exact this _ _ p hp

/-- `strings.ToLower(string(c))` -/
theorem mapRunes_one (f : Nat → Nat) {c : Nat} (h : Scalar c) : mapRunes f (utf8Encode c) = utf8Encode (f c) := by
  have := runesOf_utf8 (rs := [c]) (by simpa using h)
  simp only [List.flatMap_cons, List.flatMap_nil, List.append_nil, List.map_cons, List.map_nil] at this
  simp only [mapRunes]
  rw [show utf8Encode c = utf8 c from rfl, this]
  simp

theorem lowercaseLoop_eq (U : Uni) : ∀ (rest pre : List Nat) (fuel : Nat), rest.length < fuel → (∀ r ∈ rest, Scalar r) → ∀ (out : Bytes),
    lowercaseLoop U fuel (passed pre rest) out = .ok (out ++ heckLowercase U rest)
  | [], pre, fuel + 1, _, _, out => by simp [lowercaseLoop, passed_move_nil, heckLowercase]
  | c :: rest, pre, fuel + 1, hf, hs, out => by
    have ih := lowercaseLoop_eq U rest (pre ++ [c]) fuel (by simpa using hf) (fun r hr => hs r (by simp [hr]))
    rw [lowercaseLoop, passed_move]
    simp only [passed_this, passed_peekNext, Res.ok_bind, heckLowercase]
    rw [mapRunes_one _ (hs c (by simp))]
    split <;> rw [ih] <;> simp

theorem capitalizeInto_eq (U : Uni) (s : Bytes) : capitalizeInto U s = heckCapitalize U s := by
  have hsc := runes_scalar s
  simp only [capitalizeInto, passed_start, heckCapitalize]
  cases hr : runesOf s with
  | nil => simp [passed_next_nil]
  | cons c rest =>
    rw [hr] at hsc
    have hc : Scalar c.1 := hsc c.1 (by simp)
    simp only [List.map_cons, passed_next, Res.ok_bind, List.length_nil, Int.natCast_zero]
    rw [if_pos (by omega), mapRunes_one _ hc]
    cases rest with
    | nil => simp [passed_next_nil]
    | cons c' rest =>
      simp only [List.map_cons, passed_next, Res.ok_bind, List.length_append, List.length_cons, List.length_nil, Nat.zero_add]
      rw [if_pos (by omega), sliceAt_eq]
      cases goSlice s 1 s.length with
      | ok t =>
        simp only [Res.ok_bind, lowercaseInto]
        have h := lowercaseLoop_eq U ((runesOf t).map (·.1)) [] ((newReader t).runes.length + 1) (by rw [passed_start]; simp [passed])
          (runes_scalar t) (utf8Encode (U.toUpper c.1))
        rw [← passed_start] at h
        exact h
      | err x => simp
      | panic => simp

end Verif
