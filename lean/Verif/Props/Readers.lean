import Verif.Spec.Readers
import Verif.Props.ByteReaders
import Verif.Props.Sessions
/-!
# C104: the decoder as an `io.Reader`
-/
namespace Verif.Props
open Spec

variable {e : Encoding} {cur : Option Order}

/-! ### one call -/

/-- One `Read`: the next `k` bytes, or `io.ErrShortBuffer` and nothing, even if some bytes are left. -/
theorem C104_read (pre post : Bytes) (k : Nat) :
    decoderReader k (decAt e cur pre post) =
      if post.length < k then (.ok ([], some (.own .shortBuffer)), decAt e cur pre post)
      else (.ok (post.take k, none), decAt e cur (pre ++ post.take k) (post.drop k)) := by
  unfold decoderReader
  rw [readInto_eq (decAt_ok e cur pre post), decAt_rest]
  by_cases h : post.length < k
  · rw [if_pos h, if_pos h]
  · rw [if_neg h, if_neg h]
    have := decAt_adv e cur pre (post.take k) (post.drop k)
    rw [List.take_append_drop, List.length_take, Nat.min_eq_left (by omega)] at this
    rw [this]

/-! ### `io.ReadFull` -/

/-- C104 for `io.ReadFull`: it fills the buffer with the next bytes, or fails without reading if they are not all there. -/
theorem C104_full_partial (pre post : Bytes) (k fuel : Nat) (hf : 2 ≤ fuel) :
    ioReadFull decoderReader k fuel (decAt e cur pre post) = some
      (if post.length < k then (.ok ([], some (.own .shortBuffer)), decAt e cur pre post)
      else (.ok (post.take k, none), decAt e cur (pre ++ post.take k) (post.drop k))) := by
  obtain ⟨f, rfl⟩ : ∃ f, fuel = f + 2 := ⟨fuel - 2, by omega⟩
  unfold ioReadFull
  rw [readLoop]
  by_cases hk : k = 0
  · subst hk; simp
  rw [if_pos ⟨by simp; omega, rfl⟩, List.length_nil, Nat.sub_zero, C104_read]
  by_cases h : post.length < k
  · simp only [if_pos h]
    simp only [List.append_nil]
    rw [readLoop, if_neg (by simp)]
    simp [hk]
  · simp only [if_neg h]
    simp only [List.nil_append]
    rw [readLoop, if_neg (by simp; omega)]
    simp [show k ≤ post.length by omega]

private theorem full_loop {σ : Type} (r : IoReader σ) (k : Nat) : ∀ (fuel : Nat) (got : Bytes) (x : Option RdErr) (s s' : σ) (out : Bytes)
    (y : Option RdErr), readLoop r k k fuel got x s = some (.ok (out, y), s') → (k ≤ out.length ↔ y = none) := by
  intro fuel
  induction fuel with
  | zero => intro got x s s' out y h; simp [readLoop] at h
  | succ f ih =>
    intro got x s s' out y h
    rw [readLoop] at h
    by_cases hc : got.length < k ∧ x = none
    · rw [if_pos hc] at h
      rcases hr : r (k - got.length) s with ⟨⟨bs, x'⟩ | _ | _, s1⟩ <;> rw [hr] at h
      · exact ih _ _ _ _ _ _ h
      · simp at h
      · simp at h
    · rw [if_neg hc] at h
      simp only [Option.some.injEq, Prod.mk.injEq, Res.ok.injEq] at h
      obtain ⟨⟨rfl, rfl⟩, -⟩ := h
      by_cases hk : k ≤ got.length
      · simp [hk]
      · rw [if_neg hk]
        have hx : x ≠ none := fun hx => hc ⟨by omega, hx⟩
        by_cases h2 : got ≠ [] ∧ x = some .eof
        · simp [if_pos h2, hk]
        · simp [if_neg h2, hk, hx]

/-- C104: what `io.ReadFull` promises, for every reader: there is no error exactly when the buffer is full.  A reader that hands out the last bytes
together with an error loses the error. -/
theorem C104_full_promise {σ : Type} (r : IoReader σ) (k fuel : Nat) (s s' : σ) (out : Bytes) (x : Option RdErr)
    (h : ioReadFull r k fuel s = some (.ok (out, x), s')) : k ≤ out.length ↔ x = none :=
  full_loop r k fuel [] none s s' out x h

/-! ### `io.ReadAll` -/

/-- `io.ReadAll` returns everything an honest reader has, and no error. -/
theorem readAll_honest {σ : Type} {r : IoReader σ} {left : σ → Bytes} (hr : Honest r left) {grow : Nat → Nat} (hg : ∀ c, c < grow c) :
    ∀ (fuel cap : Nat) (got : Bytes) (s : σ), got.length < cap → (left s).length + 1 < fuel →
      ∃ s', readAllLoop r grow fuel cap got s = some (.ok (got ++ left s, none), s') := by
  intro fuel
  induction fuel with
  | zero => intro cap got s _ h; omega
  | succ f ih =>
    intro cap got s hc hf
    obtain ⟨bs, err, s', h1, h2, h3, h4, h5⟩ := hr (cap - got.length) s
    rw [readAllLoop, h1]
    cases err with
    | some x =>
      obtain ⟨rfl, h6⟩ := h5 x rfl
      simp [h2, h6]
    | none =>
      have hne := h4 rfl (by omega)
      have hbl : 0 < bs.length := List.length_pos_iff.mpr hne
      have hll := congrArg List.length h2
      rw [List.length_append] at hll
      simp only
      obtain ⟨s'', h7⟩ := ih (if (got ++ bs).length = cap then grow cap else cap) (got ++ bs) s' (by
        have := hg cap
        rw [List.length_append]
        split <;> omega) (by omega)
      refine ⟨s'', ?_⟩
      rw [h7, h2, List.append_assoc]

/-- What C104 asks: `io.ReadAll` returns everything a reader has that keeps to the documentation of `io.Reader`. -/
theorem C104_contract {σ : Type} {r : IoReader σ} {left : σ → Bytes} (hr : Honest r left) {grow : Nat → Nat} (hg : ∀ c, c < grow c)
    {cap : Nat} (hc : 0 < cap) (s : σ) (fuel : Nat) (hf : (left s).length + 1 < fuel) :
    ∃ s', ioReadAll r grow cap fuel s = some (.ok (left s, none), s') := by
  simpa [ioReadAll] using readAll_honest hr hg fuel cap [] s (by simpa using hc) hf

/-- The decoder does not keep to it, whatever one takes for the bytes it has. -/
theorem C104_dishonest : ¬ ∃ left, Honest decoderReader left := by
  rintro ⟨left, h⟩
  obtain ⟨bs, err, s', h1, _, _, _, h2⟩ := h 1 (decAt .bin none [] [])
  rw [C104_read, if_pos (by simp)] at h1
  simp only [Prod.mk.injEq, Res.ok.injEq] at h1
  have := (h2 _ h1.1.2.symm).1
  cases this

/-- The standard readers are honest, so that `io.ReadAll` returns what they hold. -/
theorem plainReader_honest : Honest plainReader id := by
  intro k s
  unfold plainReader
  by_cases h : s = []
  · subst h
    exact ⟨[], some .eof, [], by simp⟩
  · refine ⟨s.take k, none, s.drop k, by simp [h], by simp, by simp; omega, ?_, by simp⟩
    intro _ hk
    simp only [ne_eq, List.take_eq_nil_iff, h, or_false]
    omega

theorem roomAt_grows {grow : Nat → Nat} (hg : ∀ c, c < grow c) (cap n : Nat) :
    filledAt grow cap n ≤ roomAt grow cap n ∧ (0 < cap → filledAt grow cap n < roomAt grow cap n) := by
  cases n with
  | zero => simp [filledAt, roomAt]
  | succ n =>
    have := hg (roomAt grow cap n)
    exact ⟨by simp only [filledAt, roomAt]; omega, fun _ => by simp only [filledAt, roomAt]; omega⟩

private theorem all_loop {grow : Nat → Nat} (hg : ∀ c, c < grow c) {cap : Nat} (hc : 0 < cap) (pre all : Bytes) :
    ∀ (fuel n : Nat), filledAt grow cap n ≤ all.length → all.length - filledAt grow cap n + 1 ≤ fuel →
      ∃ m, filledAt grow cap m ≤ all.length ∧ all.length < roomAt grow cap m ∧
        readAllLoop decoderReader grow fuel (roomAt grow cap n) (all.take (filledAt grow cap n))
            (decAt e cur (pre ++ all.take (filledAt grow cap n)) (all.drop (filledAt grow cap n))) =
          some (.ok (all.take (filledAt grow cap m), some (.own .shortBuffer)),
            decAt e cur (pre ++ all.take (filledAt grow cap m)) (all.drop (filledAt grow cap m))) := by
  intro fuel
  induction fuel with
  | zero => intro n _ h; omega
  | succ f ih =>
    intro n h1 h2
    have hlt := (roomAt_grows hg cap n).2 hc
    rw [readAllLoop, List.length_take, Nat.min_eq_left h1, C104_read, List.length_drop]
    by_cases h : all.length - filledAt grow cap n < roomAt grow cap n - filledAt grow cap n
    · rw [if_pos h]
      exact ⟨n, h1, by omega, by simp⟩
    · rw [if_neg h]
      simp only
      have h3 : all.take (filledAt grow cap n) ++
          (all.drop (filledAt grow cap n)).take (roomAt grow cap n - filledAt grow cap n) = all.take (roomAt grow cap n) := by
        conv => rhs; rw [show roomAt grow cap n = filledAt grow cap n + (roomAt grow cap n - filledAt grow cap n) by omega]
        rw [List.take_add]
      rw [List.append_assoc, h3, List.drop_drop, show filledAt grow cap n + (roomAt grow cap n - filledAt grow cap n) = roomAt grow cap n by omega,
        if_pos (by rw [List.length_take, Nat.min_eq_left (by omega)])]
      exact ih (n + 1) (by simp only [filledAt]; omega) (by simp only [filledAt]; omega)

/-- C104 is false for `io.ReadAll`: it fails on every decoder, even on an empty one, whatever sizes the buffer grows through.  It returns the
bytes that fill the largest buffer that can be filled, and leaves the cursor behind them. -/
theorem C104_violated {grow : Nat → Nat} (hg : ∀ c, c < grow c) {cap : Nat} (hc : 0 < cap) (pre post : Bytes) (fuel : Nat)
    (hf : post.length < fuel) :
    ∃ m, filledAt grow cap m ≤ post.length ∧ post.length < roomAt grow cap m ∧
      ioReadAll decoderReader grow cap fuel (decAt e cur pre post) =
        some (.ok (post.take (filledAt grow cap m), some (.own .shortBuffer)),
          decAt e cur (pre ++ post.take (filledAt grow cap m)) (post.drop (filledAt grow cap m))) := by
  have := all_loop (e := e) (cur := cur) hg hc pre post fuel 0 (by simp [filledAt]) (by simp [filledAt]; omega)
  simpa [filledAt, roomAt, ioReadAll] using this

/-- What an `io.ReadAll` of a decoder with less than 512 bytes left returns: nothing. -/
theorem C104_small (pre post : Bytes) (h : post.length < 512) {grow : Nat → Nat} (fuel : Nat) (hf : 1 ≤ fuel) :
    ioReadAll decoderReader grow 512 fuel (decAt e cur pre post) =
      some (.ok ([], some (.own .shortBuffer)), decAt e cur pre post) := by
  obtain ⟨f, rfl⟩ : ∃ f, fuel = f + 1 := ⟨fuel - 1, by omega⟩
  unfold ioReadAll
  rw [readAllLoop, C104_read, if_pos (by simpa using h)]
  simp

/-- C104 for `io.ReadAll` behind an `io.LimitReader` of no more bytes than there are: exactly these bytes, no error.  So
`io.ReadAll(io.LimitReader(dec, int64(dec.Remaining())))` returns all that is left. -/
theorem C104_limited_partial {grow : Nat → Nat} (hg : ∀ c, c < grow c) {cap : Nat} (hc : 0 < cap) (pre bs post : Bytes) (fuel : Nat)
    (hf : bs.length + 1 < fuel) :
    ioReadAll (limitReader decoderReader) grow cap fuel (decAt e cur pre (bs ++ post), bs.length) =
      some (.ok (bs, none), (decAt e cur (pre ++ bs) post, 0)) := by
  have key : ∀ (fuel cap : Nat) (got pre bs : Bytes), got.length < cap → bs.length + 1 < fuel →
      readAllLoop (limitReader decoderReader) grow fuel cap got (decAt e cur pre (bs ++ post), bs.length) =
        some (.ok (got ++ bs, none), (decAt e cur (pre ++ bs) post, 0)) := by
    intro fuel
    induction fuel with
    | zero => intro _ _ _ _ _ h; omega
    | succ f ih =>
      intro cap got pre bs h1 h2
      rw [readAllLoop, limitReader]
      by_cases h0 : bs = []
      · subst h0; simp
      have hl : 0 < bs.length := List.length_pos_iff.mpr h0
      simp only
      rw [if_neg (by omega), C104_read, if_neg (by simp; omega)]
      simp only
      have hlen : (bs ++ post).take (min (cap - got.length) bs.length) = bs.take (min (cap - got.length) bs.length) :=
        List.take_append_of_le_length (by omega)
      have hdrop : (bs ++ post).drop (min (cap - got.length) bs.length) = bs.drop (min (cap - got.length) bs.length) ++ post :=
        List.drop_append_of_le_length (by omega)
      have hmin : min (min (cap - got.length) bs.length) bs.length = min (cap - got.length) bs.length := by omega
      rw [hlen, hdrop, List.length_take, hmin, show bs.length - min (cap - got.length) bs.length =
        (bs.drop (min (cap - got.length) bs.length)).length by rw [List.length_drop]]
      rw [ih _ _ _ _ (by
        have := hg cap
        rw [List.length_append, List.length_take, hmin]
        split <;> omega) (by rw [List.length_drop]; omega)]
      rw [List.append_assoc, List.append_assoc, List.take_append_drop]
  unfold ioReadAll
  rw [key fuel cap [] pre bs (by simpa using hc) hf, List.nil_append]

/-! ### `io.Copy` -/

private theorem copy_loop {size : Nat} (hs : 0 < size) :
    ∀ (fuel : Nat) (out pre post : Bytes), post.length / size < fuel →
      copyLoop decoderReader size fuel out (decAt e cur pre post) =
        some (.ok (out ++ post.take (post.length / size * size), some (.own .shortBuffer)),
          decAt e cur (pre ++ post.take (post.length / size * size)) (post.drop (post.length / size * size))) := by
  intro fuel
  induction fuel with
  | zero => intro _ _ _ h; exact absurd h (Nat.not_lt_zero _)
  | succ f ih =>
    intro out pre post h
    rw [copyLoop, C104_read]
    by_cases hlt : post.length < size
    · rw [if_pos hlt, Nat.div_eq_of_lt hlt]; simp
    · rw [if_neg hlt]
      have hd : post.length / size = (post.length - size) / size + 1 := by
        rw [Nat.div_eq_sub_div hs (by omega)]
      simp only
      rw [ih _ _ _ (by rw [List.length_drop]; omega), List.length_drop, hd, Nat.add_mul, Nat.one_mul]
      have h3 : post.take size ++ (post.drop size).take ((post.length - size) / size * size) =
          post.take ((post.length - size) / size * size + size) := by
        rw [Nat.add_comm, List.take_add]
      rw [List.append_assoc, List.append_assoc, h3, List.drop_drop, Nat.add_comm size]

/-- C104 is false for `io.Copy`: it writes whole buffers, leaves what does not fill one in the decoder, and fails. -/
theorem C104_copy {size : Nat} (hs : 0 < size) (pre post : Bytes) (fuel : Nat) (hf : post.length / size < fuel) :
    ioCopy decoderReader size fuel (decAt e cur pre post) =
      some (.ok (post.take (post.length / size * size), some (.own .shortBuffer)),
        decAt e cur (pre ++ post.take (post.length / size * size)) (post.drop (post.length / size * size))) := by
  unfold ioCopy
  rw [copy_loop hs fuel [] pre post hf, List.nil_append]

private theorem copyN_loop {size : Nat} (hs : 0 < size) (post : Bytes) :
    ∀ (fuel : Nat) (out pre bs : Bytes), bs.length + 1 ≤ fuel →
      copyLoop (limitReader decoderReader) size fuel out (decAt e cur pre (bs ++ post), bs.length) =
        some (.ok (out ++ bs, none), (decAt e cur (pre ++ bs) post, 0)) := by
  intro fuel
  induction fuel with
  | zero => intro _ _ _ h; omega
  | succ f ih =>
    intro out pre bs h
    rw [copyLoop, limitReader]
    by_cases h0 : bs = []
    · subst h0; simp
    have hl : 0 < bs.length := List.length_pos_iff.mpr h0
    simp only
    rw [if_neg (by omega), C104_read, if_neg (by simp; omega)]
    simp only
    have hlen : (bs ++ post).take (min size bs.length) = bs.take (min size bs.length) :=
      List.take_append_of_le_length (by omega)
    have hdrop : (bs ++ post).drop (min size bs.length) = bs.drop (min size bs.length) ++ post :=
      List.drop_append_of_le_length (by omega)
    rw [hlen, hdrop, List.length_take, show min (min size bs.length) bs.length = min size bs.length by omega,
      show bs.length - min size bs.length = (bs.drop (min size bs.length)).length by rw [List.length_drop]]
    rw [ih _ _ _ (by rw [List.length_drop]; omega), List.append_assoc, List.append_assoc, List.take_append_drop]

/-- C104 for `io.CopyN` of no more bytes than there are: exactly these bytes, no error, cursor behind them. -/
theorem C104_copyN_partial {size : Nat} (hs : 0 < size) (pre bs post : Bytes) (fuel : Nat) (hf : bs.length < fuel) :
    ioCopyN decoderReader size bs.length fuel (decAt e cur pre (bs ++ post)) =
      some (.ok (bs, none), decAt e cur (pre ++ bs) post) := by
  unfold ioCopyN
  rw [copyN_loop (by split <;> omega) post fuel [] pre bs (by omega)]
  simp

/-- C104: what `io.CopyN` promises, for every reader: there is no error exactly when the number of bytes is the one asked for. -/
theorem C104_copyN_promise {σ : Type} (r : IoReader σ) (size n fuel : Nat) (s s' : σ) (out : Bytes) (x : Option RdErr)
    (h : ioCopyN r size n fuel s = some (.ok (out, x), s')) : out.length = n ↔ x = none := by
  unfold ioCopyN at h
  split at h <;> simp only [Option.some.injEq, Prod.mk.injEq, Res.ok.injEq, reduceCtorEq, false_and] at h
  obtain ⟨⟨h1, h2⟩, -⟩ := h
  subst h1 h2
  split
  · simp [*]
  · rename_i hne
    split <;> simp [*]

private theorem copyN_short_loop {size : Nat} (hs : 0 < size) :
    ∀ (fuel : Nat) (out pre post : Bytes) (n : Nat), post.length < n → post.length / size < fuel →
      copyLoop (limitReader decoderReader) size fuel out (decAt e cur pre post, n) =
        some (.ok (out ++ post.take (post.length / size * size), some (.own .shortBuffer)),
          (decAt e cur (pre ++ post.take (post.length / size * size)) (post.drop (post.length / size * size)),
            n - post.length / size * size)) := by
  intro fuel
  induction fuel with
  | zero => intro _ _ _ _ _ h; exact absurd h (Nat.not_lt_zero _)
  | succ f ih =>
    intro out pre post n hn h
    rw [copyLoop, limitReader]
    simp only
    rw [if_neg (by omega), C104_read]
    by_cases hlt : post.length < size
    · rw [if_pos (by omega), Nat.div_eq_of_lt hlt]; simp
    · rw [if_neg (by omega)]
      have hd : post.length / size = (post.length - size) / size + 1 := by
        rw [Nat.div_eq_sub_div hs (by omega)]
      have hle : (post.length - size) / size * size ≤ post.length - size := Nat.div_mul_le_self _ _
      simp only
      rw [show min size n = size by omega, List.length_take, show min size post.length = size by omega]
      rw [ih _ _ _ _ (by rw [List.length_drop]; omega) (by rw [List.length_drop]; omega), List.length_drop, hd, Nat.add_mul, Nat.one_mul]
      have h3 : post.take size ++ (post.drop size).take ((post.length - size) / size * size) =
          post.take ((post.length - size) / size * size + size) := by
        rw [Nat.add_comm, List.take_add]
      rw [List.append_assoc, List.append_assoc, h3, List.drop_drop, Nat.add_comm size, Nat.sub_sub, Nat.add_comm size]

/-- C104 for `io.CopyN` of more bytes than there are: it fails, but it too leaves what does not fill a buffer in the decoder. -/
theorem C104_copyN_short {size : Nat} (hs : 0 < size) (pre post : Bytes) (n fuel : Nat) (hn : post.length < n) (hf : post.length < fuel) :
    ioCopyN decoderReader size n fuel (decAt e cur pre post) =
      some (.ok (post.take (post.length / min size n * min size n), some (.own .shortBuffer)),
        decAt e cur (pre ++ post.take (post.length / min size n * min size n)) (post.drop (post.length / min size n * min size n))) := by
  unfold ioCopyN
  rw [show (if size > n then max n 1 else size) = min size n by split <;> omega]
  have hp : 0 < min size n := by omega
  have hle : post.length / min size n * min size n ≤ post.length := Nat.div_mul_le_self _ _
  rw [copyN_short_loop hp fuel [] pre post n hn (Nat.lt_of_le_of_lt (Nat.div_le_self _ _) hf)]
  simp only [List.nil_append, List.length_take]
  rw [if_neg (by omega), if_neg (by simp)]

/-! ### bytes -/

theorem decoderBytes_eq (pre post : Bytes) : decoderBytes (decAt e cur pre post) =
    match post with
    | [] => (.error .notEnough, decAt e cur pre [])
    | b :: rest => (.ok b, decAt e cur (pre ++ [b]) rest) := by
  unfold decoderBytes
  rw [readByte_eq (decAt_ok e cur pre post), decAt_rest]
  cases post with
  | nil => rfl
  | cons b rest =>
    have := decAt_adv e cur pre [b] rest
    simp only [List.length_singleton, List.singleton_append] at this
    simp only [this]

private theorem uvarint_loop (late : Err → Err) : ∀ (fuel i x : Nat) (pre post : Bytes), fuel + i = 10 →
    (0 < (uvarintLoop x i post).2 → ∃ bs rest, post = bs ++ rest ∧ (uvarintLoop x i post).2 = (i : Int) + bs.length ∧
      stdUvarintLoop decoderBytes late x i fuel (decAt e cur pre post) =
        (.ok (uvarintLoop x i post).1, decAt e cur (pre ++ bs) rest)) ∧
    ((uvarintLoop x i post).2 ≤ 0 → (∀ v s, stdUvarintLoop decoderBytes late x i fuel (decAt e cur pre post) ≠ (.ok v, s)) ∧
      (stdUvarintLoop decoderBytes late x i fuel (decAt e cur pre post)).2 =
        decAt e cur (pre ++ post.take fuel) (post.drop fuel)) := by
  intro fuel
  induction fuel with
  | zero =>
    intro i x pre post h
    have hi : i = 10 := by omega
    subst hi
    have h2 : (uvarintLoop x 10 post).2 ≤ 0 := by
      cases post with
      | nil => simp [uvarintLoop]
      | cons b rest => simp [uvarintLoop]
    exact ⟨fun h3 => absurd h3 (by omega), fun _ => ⟨by simp [stdUvarintLoop], by simp [stdUvarintLoop]⟩⟩
  | succ f ih =>
    intro i x pre post h
    cases post with
    | nil =>
      refine ⟨fun h3 => absurd h3 (by simp [uvarintLoop]), fun _ => ?_⟩
      rw [stdUvarintLoop, decoderBytes_eq]
      simp
    | cons b rest =>
      rw [stdUvarintLoop, decoderBytes_eq, uvarintLoop, if_neg (by omega)]
      simp only
      by_cases hb : b < 0x80
      · rw [if_pos hb, if_pos hb]
        by_cases ho : i = 9 ∧ b > 1
        · rw [if_pos ho, if_pos ho]
          have hf : f = 0 := by omega
          subst hf
          refine ⟨fun h3 => absurd h3 (by simp only; omega), fun _ => ⟨by simp, by simp⟩⟩
        · rw [if_neg ho, if_neg ho]
          refine ⟨fun _ => ⟨[b], rest, rfl, by simp, rfl⟩, fun h3 => absurd h3 (by simp only; omega)⟩
      · rw [if_neg hb, if_neg hb]
        obtain ⟨h4, h5⟩ := ih (i + 1) (x ||| ((b &&& 0x7f).toNat <<< (7 * i))) (pre ++ [b]) rest (by omega)
        refine ⟨fun h3 => ?_, fun h3 => ?_⟩
        · obtain ⟨bs, r, h6, h7, h8⟩ := h4 h3
          refine ⟨b :: bs, r, by rw [h6, List.cons_append], by rw [h7]; simp; omega, ?_⟩
          rw [h8]; simp
        · obtain ⟨h6, h7⟩ := h5 h3
          refine ⟨h6, ?_⟩
          rw [h7]; simp

/-- C104 for `binary.ReadUvarint(dec)`: it succeeds exactly when `dec.ReadUvarint64()` does, with the same number and the same cursor.  When they
fail, `ReadUvarint64` has not moved the cursor, `binary.ReadUvarint` has moved it by ten bytes or to the end. -/
theorem C104_uvarint (late : Err → Err) (pre post : Bytes) :
    (∀ v d', readUvarint64 (decAt e cur pre post) = (.ok v, d') ↔
      stdReadUvarint decoderBytes late (decAt e cur pre post) = (.ok v, d')) ∧
    ((∀ v d', readUvarint64 (decAt e cur pre post) ≠ (.ok v, d')) →
      (readUvarint64 (decAt e cur pre post)).2 = decAt e cur pre post ∧
      (stdReadUvarint decoderBytes late (decAt e cur pre post)).2 = decAt e cur (pre ++ post.take 10) (post.drop 10)) := by
  obtain ⟨h1, h2⟩ := uvarint_loop (e := e) (cur := cur) late 10 0 0 pre post rfl
  rw [readUvarint64_eq (decAt_ok e cur pre post), decAt_rest]
  unfold goUvarint stdReadUvarint
  by_cases h : (uvarintLoop 0 0 post).2 ≤ 0
  · rw [if_pos h]
    obtain ⟨h3, h4⟩ := h2 h
    exact ⟨fun v d' => ⟨fun h5 => by simp at h5, fun h5 => absurd h5 (h3 v d')⟩, fun _ => ⟨rfl, h4⟩⟩
  · rw [if_neg h]
    obtain ⟨bs, rest, h3, h4, h5⟩ := h1 (by omega)
    have hadv := decAt_adv e cur pre bs rest
    rw [← h3] at hadv
    rw [h5, h4, show ((0 : Nat) + (bs.length : Int)).toNat = bs.length by omega, hadv]
    exact ⟨fun v d' => by simp, fun h6 => absurd rfl (h6 _ _)⟩

private theorem uvarint_short (late : Err → Err) : ∀ (post : Bytes) (fuel i x : Nat) (pre : Bytes), (∀ b ∈ post, 0x80 ≤ b) →
    post.length < fuel → (stdUvarintLoop decoderBytes late x i fuel (decAt e cur pre post)).1 =
      .reader (if i = 0 ∧ post = [] then .notEnough else late .notEnough)
  | [], fuel + 1, i, x, pre, _, _ => by simp [stdUvarintLoop, decoderBytes_eq]
  | b :: post, fuel + 1, i, x, pre, h, hf => by
    have hb : ¬ b < 0x80 := by
      have := h b (List.mem_cons_self ..)
      simpa using this
    simp only [stdUvarintLoop, decoderBytes_eq, if_neg hb]
    rw [uvarint_short late post fuel (i + 1) _ _ (fun c hc => h c (List.mem_cons_of_mem _ hc)) (by simpa using hf)]
    simp

/-- C104 for `binary.ReadUvarint(dec)` at the end of the input: the error is the decoder's own.  `late` applies to it behind the first byte only (it
is for `io.EOF`, which a decoder does not return). -/
theorem C104_uvarint_short (late : Err → Err) (pre post : Bytes) (h : ∀ b ∈ post, 0x80 ≤ b) (hl : post.length < 10) :
    (stdReadUvarint decoderBytes late (decAt e cur pre post)).1 =
      .reader (if post = [] then .notEnough else late .notEnough) := by
  rw [stdReadUvarint, uvarint_short late post 10 0 0 pre h hl]
  simp

private theorem reads_decoder : ∀ (bs pre post : Bytes), Reads decoderBytes (decAt e cur pre (bs ++ post)) bs (decAt e cur (pre ++ bs) post)
  | [], pre, post => by simp [Reads]
  | b :: bs, pre, post => by
    refine ⟨decAt e cur (pre ++ [b]) (bs ++ post), ?_, ?_⟩
    · rw [List.cons_append, decoderBytes_eq]
    · have := reads_decoder bs (pre ++ [b]) post
      rwa [List.append_assoc, List.singleton_append] at this

private theorem reads_only {bs pre post : Bytes} {d' : Dec} (h : Reads decoderBytes (decAt e cur pre post) bs d') :
    ∃ rest, post = bs ++ rest ∧ d' = decAt e cur (pre ++ bs) rest := by
  induction bs generalizing pre post with
  | nil => exact ⟨post, rfl, by rw [← (show decAt e cur pre post = d' from h), List.append_nil]⟩
  | cons b bs ih =>
    obtain ⟨s₁, h1, h2⟩ := h
    rw [decoderBytes_eq] at h1
    cases post with
    | nil => simp at h1
    | cons c post =>
      simp only [Prod.mk.injEq, Except.ok.injEq] at h1
      obtain ⟨rfl, rfl⟩ := h1
      obtain ⟨rest, rfl, rfl⟩ := ih h2
      exact ⟨rest, rfl, by rw [List.append_assoc, List.singleton_append]⟩

/-- C104 for `DecodeCompactU16LengthFromByteReader(dec)`: it returns a length exactly when `dec.ReadCompactU16()` does, the same, and leaves the
cursor at the same place. -/
theorem C104_compact (pre post : Bytes) (n : Nat) (d' : Dec) :
    decodeCompactFromByteReader decoderBytes (decAt e cur pre post) = (.ok n, d') ↔
      readCompactU16 (decAt e cur pre post) = (.ok n, d') := by
  rw [C101_ok]
  constructor
  · rintro ⟨hn, h⟩
    obtain ⟨rest, rfl, rfl⟩ := reads_only h
    exact (readCompactU16_reads e n hn).consumes cur pre rest
  · intro h
    rw [readCompactU16_eq (decAt_ok e cur pre post), decAt_rest] at h
    rcases hd : decodeCompactU16 post with ⟨m, k⟩ | x | _ <;> rw [hd] at h <;> simp only [Prod.mk.injEq, Res.ok.injEq, reduceCtorEq,
      false_and] at h
    obtain ⟨rfl, rfl⟩ := h
    obtain ⟨hn, hl, t, ht⟩ := (decodeCompactU16_ok_iff _ _ _).mp hd
    refine ⟨hn, ?_⟩
    rw [ht, hl, decAt_adv]
    exact reads_decoder _ _ _

/-! ### concrete cases -/

/-- 600 bytes with buffers of 512 and 848: the first 512 come back, with an error. -/
example : ioReadAll decoderReader (fun c => c + 336) 512 3 (Dec.new (List.replicate 600 7) .borsh) =
    some (.ok (List.replicate 512 7, some (.own .shortBuffer)), { Dec.new (List.replicate 600 7) .borsh with pos := 512 }) := by
  decide +kernel
/-- From a `bytes.Reader` they all come. -/
example : ioReadAll plainReader (fun c => c + 336) 512 4 (List.replicate 600 7) = some (.ok (List.replicate 600 7, none), []) := by
  decide +kernel
example : ioReadAll decoderReader (· + 1) 512 2 (Dec.new [] .bin) = some (.ok ([], some (.own .shortBuffer)), Dec.new [] .bin) := by
  decide +kernel
example : ioReadFull decoderReader 2 2 (Dec.new [1, 2, 3] .bin) = some (.ok ([1, 2], none), { Dec.new [1, 2, 3] .bin with pos := 2 }) := by
  decide +kernel
example : ioCopy decoderReader 2 3 (Dec.new [1, 2, 3] .bin) =
    some (.ok ([1, 2], some (.own .shortBuffer)), { Dec.new [1, 2, 3] .bin with pos := 2 }) := by decide +kernel
example : ioCopyN decoderReader 32768 2 3 (Dec.new [1, 2, 3] .bin) =
    some (.ok ([1, 2], none), { Dec.new [1, 2, 3] .bin with pos := 2 }) := by decide +kernel
/-- More than there are: nothing comes from the decoder, all there is from a `bytes.Reader`. -/
example : ioCopyN decoderReader 32768 5 6 (Dec.new [1, 2, 3] .bin) = some (.ok ([], some (.own .shortBuffer)), Dec.new [1, 2, 3] .bin) ∧
    ioCopyN plainReader 32768 5 6 [1, 2, 3] = some (.ok ([1, 2, 3], some .eof), []) := by decide +kernel
example : ioReadAll (limitReader decoderReader) (· + 1) 512 5 (Dec.new [1, 2, 3] .bin, 3) =
    some (.ok ([1, 2, 3], none), ({ Dec.new [1, 2, 3] .bin with pos := 3 }, 0)) := by decide +kernel
example : stdReadUvarint decoderBytes id (Dec.new [0xac, 0x02, 9] .bin) = (.ok 300, { Dec.new [0xac, 0x02, 9] .bin with pos := 2 }) := by
  decide +kernel
example : stdReadUvarint decoderBytes id (Dec.new [0xac] .bin) = (.reader .notEnough, { Dec.new [0xac] .bin with pos := 1 }) := by
  decide +kernel
/-- A reader that fails with its last two bytes: the buffer is full, there is no error. -/
example : ioReadFull (fun k (_ : Unit) => (.ok (List.replicate k 7, some .eof), ())) 2 2 () = some (.ok ([7, 7], none), ()) := by decide +kernel
example : stdReadUvarint decoderBytes (fun _ => .eof) (Dec.new [] .bin) = (.reader .notEnough, Dec.new [] .bin) ∧
    stdReadUvarint decoderBytes (fun _ => .eof) (Dec.new [0xac] .bin) = (.reader .eof, { Dec.new [0xac] .bin with pos := 1 }) := by
  decide +kernel
/-- The growth of a buffer and its first size meet the hypotheses. -/
example : (∀ c, c < c + 336) ∧ 0 < 512 ∧ (List.replicate 600 (7 : UInt8)).length < 601 := ⟨by omega, by omega, by rw [List.length_replicate]; omega⟩

end Verif.Props
