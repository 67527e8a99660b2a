import Verif.Props.Failure
import Verif.Props.Containers
/-!
# C76: where a failed decode of a map, slice, array or pointer stops
-/
namespace Verif.Props
open Spec

theorem fill_step {e : Encoding} (hv : e.valid = true) (t : Ty) (old : Val) {d : Dec} (hd : d.enc = e) :
    Fill.read (setCurD .le) old (fun _ => fillCore e t {} old) d = decodeInto t old d := by
  have hne : ¬ d.enc = .other := by rw [hd]; intro h; rw [h] at hv; cases hv
  unfold decodeInto
  simp only [Fill.read, M.get_apply, if_neg hne, setCurD, M.modify_apply]
  rw [hd]

theorem decodeInto_core {e : Encoding} (hv : e.valid = true) (t : Ty) (old : Val) {d : Dec} (hd : d.enc = e) :
    decodeInto t old d = fillCore e t {} old { d with cur := some .le } := by
  rw [← fill_step hv t old hd]
  simp only [Fill.read, setCurD, M.modify_apply]

theorem decode_of_into {t : Ty} {old x : Val} {d d' : Dec} (h : decodeInto t old d = (.ok (), x, d')) :
    decode t old d = (.ok x, d') := by
  rw [← run_decodeInto]
  exact Fill.run_ok h

theorem good_next {e : Encoding} (hv : e.valid = true) {N : Nat} {t : Ty} (ht : decodable e t false = true) {old x : Val}
    (hs : Shaped N t old) {d d' : Dec} (hg : Good e N d) (h : decodeInto t old d = (.ok (), x, d')) : Good e N d' := by
  have := (decode_step hv ht hs hg).2
  rw [decode_of_into h] at this
  exact this

theorem collect_inTurn {e : Encoding} (hv : e.valid = true) {N : Nat} {t : Ty} (ht : decodable e t false = true) {er : Err} :
    ∀ (n : Nat) (d d' : Dec) (xs : List Val), Good e N d →
    Fill.collect (.read (setCurD .le) t.zero fun _ => fillCore e t {} t.zero) n d = (.err er, xs, d') →
    xs.length < n ∧ ∃ d1 x, InTurn t (List.replicate xs.length t.zero) xs d d1 ∧ decodeInto t t.zero d1 = (.err er, x, d')
  | 0, d, d', xs, _, h => by simp [Fill.collect, Fill.done] at h
  | n + 1, d, d', xs, hg, h => by
    rw [Fill.collect] at h
    rcases Fill.part_err h with ⟨a, h1, rfl⟩ | ⟨a, d1, h1, h2⟩
    · rw [fill_step hv t _ hg.2.1] at h1
      exact ⟨by simp, d, a, .nil _, h1⟩
    · rw [fill_step hv t _ hg.2.1] at h1
      obtain ⟨ys, h3, rfl⟩ := Fill.wrap_err h2
      obtain ⟨h4, d2, x, h5, h6⟩ := collect_inTurn hv ht n d1 d' ys (good_next hv ht (zero_shaped N t) hg h1) h3
      exact ⟨by simpa using h4, d2, x, .cons (decode_of_into h1) h5, h6⟩

theorem inPlace_inTurn {e : Encoding} (hv : e.valid = true) {N : Nat} {t : Ty} (ht : decodable e t false = true) {er : Err} :
    ∀ (olds : List Val) (d d' : Dec) (after : List Val), Good e N d → (∀ x ∈ olds, Shaped N t x) →
    Fill.inPlace (fun x => .read (setCurD .le) x fun _ => fillCore e t {} x) olds d = (.err er, after, d') →
    ∃ a o b xs x d1, olds = a ++ o :: b ∧ after = xs ++ x :: b ∧ InTurn t a xs d d1 ∧ decodeInto t o d1 = (.err er, x, d')
  | [], d, d', after, _, _, h => by simp [Fill.inPlace, Fill.done] at h
  | o :: olds, d, d', after, hg, hs, h => by
    rw [Fill.inPlace] at h
    rcases Fill.part_err h with ⟨a, h1, rfl⟩ | ⟨y, d1, h1, h2⟩
    · rw [fill_step hv t _ hg.2.1] at h1
      exact ⟨[], o, olds, [], a, d, rfl, rfl, .nil _, h1⟩
    · rw [fill_step hv t _ hg.2.1] at h1
      obtain ⟨ys, h3, rfl⟩ := Fill.wrap_err h2
      obtain ⟨a, o', b, xs, x, d2, rfl, rfl, h5, h6⟩ := inPlace_inTurn hv ht olds d1 d' ys
        (good_next hv ht (hs o (by simp)) hg h1) (fun z hz => hs z (by simp [hz])) h3
      exact ⟨o :: a, o', b, y :: xs, x, d2, rfl, rfl, .cons (decode_of_into h1) h5, h6⟩

theorem collect_pairs {e : Encoding} (hv : e.valid = true) {N : Nat} {k t : Ty} (hk : decodable e k false = true)
    (ht : decodable e t false = true) {er : Err} :
    ∀ (n : Nat) (d d' : Dec) (ps : List (Val × Val)), Good e N d →
    Fill.collect
        (.read (setCurD .le) (k.zero, t.zero) fun _ =>
          (fillCore e k {} k.zero).part (fun x => (x, t.zero)) fun x =>
          .read (setCurD .le) (x, t.zero) fun _ =>
          (fillCore e t {} t.zero).wrap fun y => (x, y)) n d = (.err er, ps, d') →
    ps.length < n ∧ ∃ d1 x, Pairs k t ps d d1 ∧
      (decodeInto k k.zero d1 = (.err er, x, d') ∨
        ∃ d2 y, decodeInto k k.zero d1 = (.ok (), x, d2) ∧ decodeInto t t.zero d2 = (.err er, y, d'))
  | 0, d, d', ps, _, h => by simp [Fill.collect, Fill.done] at h
  | n + 1, d, d', ps, hg, h => by
    have key : ∀ {x d1}, fillCore e k {} k.zero { d with cur := some .le } = (x, d1) → decodeInto k k.zero d = (x, d1) := by
      intro x d1 h
      rw [decodeInto_core hv k _ hg.2.1, h]
    rw [Fill.collect] at h
    rcases Fill.part_err h with ⟨a, h1, rfl⟩ | ⟨a, d1, h1, h2⟩
    · refine ⟨by simp, d, ?_⟩
      rcases Fill.read_err h1 with ⟨h3, -⟩ | ⟨_, d2, h3, h4⟩
      · simp [setCurD] at h3
      · simp only [setCurD, M.modify_apply, Prod.mk.injEq, true_and] at h3
        subst h3
        rcases Fill.part_err h4 with ⟨x, h5, -⟩ | ⟨x, d3, h5, h6⟩
        · exact ⟨x, .nil _, .inl (key h5)⟩
        · have h7 := key h5
          have hg3 := good_next hv hk (zero_shaped N k) hg h7
          rcases Fill.read_err h6 with ⟨h8, -⟩ | ⟨_, d4, h8, h9⟩
          · simp [setCurD] at h8
          · simp only [setCurD, M.modify_apply, Prod.mk.injEq, true_and] at h8
            subst h8
            obtain ⟨y, h10, -⟩ := Fill.wrap_err h9
            exact ⟨x, .nil _, .inr ⟨d3, y, h7, by rw [decodeInto_core hv t _ hg3.2.1, h10]⟩⟩
    · have hpair : ∃ d3, decodeInto k k.zero d = (.ok (), a.1, d3) ∧ decodeInto t t.zero d3 = (.ok (), a.2, d1) := by
        simp only [Fill.read, setCurD, M.modify_apply] at h1
        unfold Fill.part at h1
        rcases h5 : fillCore e k {} k.zero { d with cur := some .le } with ⟨r, x, d3⟩
        rw [h5] at h1
        have h7 := key h5
        cases r with
        | err => simp at h1
        | panic => simp at h1
        | ok u =>
          cases u
          have hg3 := good_next hv hk (zero_shaped N k) hg h7
          simp only [Fill.wrap, Fill.part, Fill.done, Fill.read, M.modify_apply] at h1
          rcases h6 : fillCore e t {} t.zero { d3 with cur := some .le } with ⟨r, y, d4⟩
          rw [h6] at h1
          cases r with
          | err => simp at h1
          | panic => simp at h1
          | ok u =>
            cases u
            simp only [Prod.mk.injEq, true_and] at h1
            obtain ⟨rfl, rfl⟩ := h1
            exact ⟨d3, h7, by rw [decodeInto_core hv t _ hg3.2.1, h6]⟩
      obtain ⟨d3, h7, h8⟩ := hpair
      have hg1 := good_next hv ht (zero_shaped N t) (good_next hv hk (zero_shaped N k) hg h7) h8
      obtain ⟨ys, h3, rfl⟩ := Fill.wrap_err h2
      obtain ⟨h4, d2, x, h5, h6⟩ := collect_pairs hv hk ht n d1 d' ys hg1 h3
      exact ⟨by simpa using h4, d2, x, .cons (decode_of_into h7) (decode_of_into h8) h5, h6⟩

/-- C76 for maps: after a failure the map is as before when its length could not be read.  Otherwise it is a new map with
the entries of the pairs that were complete, fewer than declared, and the key or value behind them failed. -/
theorem C76_map {e : Encoding} (he : e.valid = true) {k t : Ty} (hk : decodable e k false = true)
    (ht : decodable e t false = true) (old after : Val) (cur : Option Order) (pre unread : Bytes) (d' : Dec) (er : Err)
    (h : decodeInto (.map k t) old (decAt e cur pre unread) = (.err er, after, d')) :
    (after = old ∧ ∀ p rest n, unread = p ++ rest → ¬ SeqLen e p n) ∨
    ∃ p rest n ps m d1 x, unread = p ++ rest ∧ SeqLen e p n ∧ ps.length < n ∧
      Pairs k t ps (decAt e (some .le) (pre ++ p) rest) d1 ∧ after = .map (some m) ∧ m.Perm (lasts k ps) ∧
      (decodeInto k k.zero d1 = (.err er, x, d') ∨
        ∃ d2 y, decodeInto k k.zero d1 = (.ok (), x, d2) ∧ decodeInto t t.zero d2 = (.err er, y, d')) := by
  rw [decodeInto_core he _ _ rfl] at h
  simp only [fillCore] at h
  rcases Fill.read_err h with ⟨h1, rfl⟩ | ⟨l, d1, h1, h2⟩
  · left
    refine ⟨rfl, fun p rest n hu hn => ?_⟩
    have := (readSeqLen_cases he (some .le) pre unread n _).2 ⟨p, rest, hu, hn, rfl⟩
    have heq : ({ decAt e cur pre unread with cur := some .le } : Dec) = decAt e (some .le) pre unread := rfl
    rw [heq, this] at h1
    cases h1
  · right
    obtain ⟨p, rest, hu, hn, rfl⟩ := (readSeqLen_cases he (some .le) pre unread l d1).1 h1
    split at h2
    · simp [Fill.done] at h2
    · obtain ⟨ps, h3, rfl⟩ := Fill.wrap_err h2
      obtain ⟨h4, d2, x, h5, h6⟩ := collect_pairs he hk ht l _ _ ps (good_decAt e (some .le) (pre ++ p) rest) h3
      exact ⟨p, rest, l, ps, _, d2, x, hu, hn, h4, h5, rfl, foldl_lasts ps, h6⟩

/-- C76 for slices that are decoded element by element: the slice is as before when its length could not be read or exceeds
the bytes left.  Otherwise it holds new elements, fewer than declared, and the next one failed. -/
theorem C76_elements {e : Encoding} (he : e.valid = true) {t : Ty} (ht : decodable e t false = true) (hu : t.uintKind = none)
    (old after : Val) (cur : Option Order) (pre unread : Bytes) (d' : Dec) (er : Err)
    (h : decodeInto (.slice t) old (decAt e cur pre unread) = (.err er, after, d')) :
    (after = old ∧ ∀ p rest n, unread = p ++ rest → SeqLen e p n → rest.length < n) ∨
    ∃ p rest n xs d1 x, unread = p ++ rest ∧ SeqLen e p n ∧ xs.length < n ∧ after = .seq (some xs) ∧
      InTurn t (List.replicate xs.length t.zero) xs (decAt e (some .le) (pre ++ p) rest) d1 ∧
      decodeInto t t.zero d1 = (.err er, x, d') := by
  have heq : ({ decAt e cur pre unread with cur := some .le } : Dec) = decAt e (some .le) pre unread := rfl
  have hrem : ∀ p rest, (decAt e (some .le) (pre ++ p) rest).remaining = (rest.length : Int) := by
    intro p rest; simp [Dec.remaining, decAt]; omega
  rw [decodeInto_core he _ _ rfl, heq] at h
  simp only [fillCore, hu] at h
  -- the length decides which of the two it is
  have unique : ∀ p rest n, unread = p ++ rest → SeqLen e p n → ∀ l d1,
      readSeqLen e (decAt e (some .le) pre unread) = (.ok l, d1) → n = l ∧ d1 = decAt e (some .le) (pre ++ p) rest := by
    intro p rest n hp hn l d1 h1
    have h2 := (readSeqLen_cases he (some .le) pre unread n _).2 ⟨p, rest, hp, hn, rfl⟩
    rw [h1] at h2
    simp only [Prod.mk.injEq, Res.ok.injEq] at h2
    exact ⟨h2.1.symm, h2.2⟩
  rcases Fill.read_err h with ⟨h1, rfl⟩ | ⟨l, d1, h1, h2⟩
  · left
    refine ⟨rfl, fun p rest n hp hn => ?_⟩
    have h2 := (readSeqLen_cases he (some .le) pre unread n _).2 ⟨p, rest, hp, hn, rfl⟩
    rw [M.bind_ok h2] at h1
    cases h1
  · rw [bind_ok_iff] at h1
    obtain ⟨n, d2, h1, h3⟩ := h1
    simp only [M.pure_apply, Prod.mk.injEq, Res.ok.injEq] at h3
    obtain ⟨rfl, rfl⟩ := h3
    obtain ⟨p, rest, hp, hn, rfl⟩ := (readSeqLen_cases he (some .le) pre unread n d2).1 h1
    split at h2
    · simp [Fill.done] at h2
    · rcases Fill.read_err h2 with ⟨h3, -⟩ | ⟨d3, d4, h3, h4⟩
      · simp at h3
      · simp only [M.get_apply, Prod.mk.injEq, Res.ok.injEq] at h3
        obtain ⟨rfl, rfl⟩ := h3
        rw [hrem] at h4
        split at h4
        · rename_i hlt
          simp only [Fill.stop, Prod.mk.injEq] at h4
          refine .inl ⟨h4.2.1.symm, fun p' rest' n' hp' hn' => ?_⟩
          obtain ⟨rfl, h5⟩ := unique p' rest' n' hp' hn' _ _ h1
          have h6 := hrem p' rest'
          rw [← h5, hrem] at h6
          omega
        · right
          obtain ⟨xs, h5, rfl⟩ := Fill.wrap_err h4
          obtain ⟨h6, d5, x, h7, h8⟩ := collect_inTurn he ht _ _ _ xs (good_decAt e (some .le) (pre ++ p) rest) h5
          exact ⟨p, rest, n, xs, d5, x, hp, hn, by simpa using h6, rfl, h7, h8⟩

/-- C76 for arrays that are decoded element by element: one element failed; those before it are decoded, those behind it are
as before. -/
theorem C76_array {e : Encoding} (he : e.valid = true) {t : Ty} (ht : decodable e t false = true) (hu : t.uintKind = none)
    (olds : List Val) {N : Nat} (hs : ∀ x ∈ olds, Shaped N t x) (after : Val) (cur : Option Order) (pre unread : Bytes)
    (d' : Dec) (er : Err)
    (h : decodeInto (.array olds.length t) (.arr olds) (decAt e cur pre unread) = (.err er, after, d')) :
    ∃ a o b xs x d1, olds = a ++ o :: b ∧ after = .arr (xs ++ x :: b) ∧
      InTurn t a xs (decAt e (some .le) pre unread) d1 ∧ decodeInto t o d1 = (.err er, x, d') := by
  have heq : ({ decAt e cur pre unread with cur := some .le } : Dec) = decAt e (some .le) pre unread := rfl
  rw [decodeInto_core he _ _ rfl, heq] at h
  simp only [fillCore, hu] at h
  obtain ⟨ys, h1, rfl⟩ := Fill.wrap_err h
  have hel : (Val.arr olds).elems olds.length t = olds := by simp [Val.elems]
  rw [hel] at h1
  have hg : Good e (max N unread.length) (decAt e (some .le) pre unread) := by
    refine ⟨decAt_ok _ _ _ _, rfl, ?_⟩
    have := (good_decAt e (some .le) pre unread).2.2
    omega
  obtain ⟨a, o, b, xs, x, d1, h2, h3, h4, h5⟩ := inPlace_inTurn he ht olds _ _ _ hg
    (fun x hx => shaped_mono (N := N) (by omega) t x (hs x hx)) h1
  exact ⟨a, o, b, xs, x, d1, h2, by rw [h3], h4, h5⟩

/-- C76 for pointers: the pointer is allocated if it was nil, and its target holds what a failed decode of it leaves. -/
theorem C76_pointer {e : Encoding} (he : e.valid = true) (t : Ty) (p : Option Val) (d d' : Dec) (hd : d.enc = e) (er : Err)
    (after : Val) (h : decodeInto (.ptr t) (.ptr p) d = (.err er, after, d')) :
    ∃ x, after = .ptr (some x) ∧ decodeInto t (p.getD t.zero) d = (.err er, x, d') := by
  rw [decodeInto_core he _ _ hd] at h
  simp only [fillCore] at h
  obtain ⟨x, h1, rfl⟩ := Fill.wrap_err h
  refine ⟨x, rfl, ?_⟩
  rw [decodeInto_core he _ _ hd, ← h1]
  cases p <;> rfl

/-- A map with room for one of its two entries; an array of strings; a pointer that was nil. -/
example : (match decodeInto (.map (.uint .w8 false) .bool) (.map none) (decAt .bin none [] [2, 7, 1, 8]) with
      | (.err .notEnough, .map (some [(.uint 7, .bool true)]), _) => true
      | _ => false) = true := by decide +kernel
example : (match decodeInto (.slice .bool) (.seq none) (decAt .compactU16 none [] [2, 1, 7]) with
      | (.ok (), .seq (some [.bool true, .bool true]), _) => true
      | _ => false) = true := by decide +kernel
example : (match decodeInto (.slice (.array 2 .bool)) (.seq none) (decAt .borsh none [] [2, 0, 0, 0, 1, 0, 1]) with
      | (.err .notEnough, .seq (some [.arr [.bool true, .bool false]]), _) => true
      | _ => false) = true := by decide +kernel
example : (match decodeInto (.array 3 .str) (.arr [.str [1], .str [2], .str [3]]) (decAt .compactU16 none [] [1, 65, 9]) with
      | (.err .notEnough, .arr [.str [65], .str [2], .str [3]], _) => true
      | _ => false) = true := by decide +kernel
example : (match decodeInto (.ptr .str) (.ptr none) (decAt .bin none [] [9]) with
      | (.err .notEnough, .ptr (some (.str [])), _) => true
      | _ => false) = true := by decide +kernel

end Verif.Props
