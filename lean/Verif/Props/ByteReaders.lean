import Verif.Model.ByteReader
import Verif.Proofs.Compact
/-!
# C101: compact-u16 lengths from any byte reader
-/
namespace Verif.Props
open Spec

/-- Successive calls of `ReadByte` return these bytes and lead from the first state to the second. -/
def Reads {σ ε : Type} (r : ByteReader σ ε) : σ → Bytes → σ → Prop
  | s, [], s' => s = s'
  | s, b :: bs, s' => ∃ s₁, r s = (.ok b, s₁) ∧ Reads r s₁ bs s'

section
variable {σ ε : Type} {r : ByteReader σ ε}

private theorem loop_forward (fuel : Nat) : ∀ (ln nth : Nat) (s : σ),
    match byteReaderLoop r ln nth fuel s with
    | (.ok p, s') => ∃ bs, Reads r s bs s' ∧ decodeCompactLoop ln nth fuel bs = .ok p ∧ p.2 = nth + bs.length
    | (.own e, s') => ∃ bs b, Reads r s (bs ++ [b]) s' ∧ decodeCompactLoop ln nth fuel bs = .err .eof ∧
        decodeCompactLoop ln nth fuel (bs ++ [b]) = .err e ∧ e ≠ .eof
    | (.reader x, s') => ∃ bs s₁, Reads r s bs s₁ ∧ r s₁ = (.error x, s') ∧ decodeCompactLoop ln nth fuel bs = .err .eof := by
  induction fuel with
  | zero => intro ln nth s; exact ⟨[], rfl, rfl, rfl⟩
  | succ f ih =>
    intro ln nth s
    unfold byteReaderLoop
    rcases hr : r s with ⟨x | b, s₁⟩
    · exact ⟨[], s, rfl, hr, rfl⟩
    · simp only
      by_cases h1 : b = 0 ∧ nth ≠ 0
      · rw [if_pos h1]
        exact ⟨[], b, ⟨s₁, hr, rfl⟩, rfl, by simp [decodeCompactLoop, h1], by simp⟩
      rw [if_neg h1]
      by_cases h2 : nth = 2 ∧ b &&& 0x80 ≠ 0
      · rw [if_pos h2]
        exact ⟨[], b, ⟨s₁, hr, rfl⟩, rfl, by rw [List.nil_append, decodeCompactLoop, if_neg h1, if_pos h2], by simp⟩
      rw [if_neg h2]
      by_cases h3 : b &&& 0x80 = 0
      · rw [if_pos h3]
        exact ⟨[b], ⟨s₁, hr, rfl⟩, by rw [decodeCompactLoop, if_neg h1, if_neg h2, if_pos h3], rfl⟩
      rw [if_neg h3]
      have hl : ∀ bs, decodeCompactLoop ln nth (f + 1) (b :: bs) =
          decodeCompactLoop (ln ||| ((b &&& 0x7f).toNat <<< (nth * 7))) (nth + 1) f bs := by
        intro bs; rw [decodeCompactLoop, if_neg h1, if_neg h2, if_neg h3]
      have := ih (ln ||| ((b &&& 0x7f).toNat <<< (nth * 7))) (nth + 1) s₁
      rcases hb : byteReaderLoop r (ln ||| ((b &&& 0x7f).toNat <<< (nth * 7))) (nth + 1) f s₁ with ⟨p | x | e, s'⟩ <;> rw [hb] at this
      · obtain ⟨bs, h4, h5, h6⟩ := this
        exact ⟨b :: bs, ⟨s₁, hr, h4⟩, by rw [hl, h5], by rw [h6, List.length_cons]; omega⟩
      · obtain ⟨bs, s₂, h4, h5, h6⟩ := this
        exact ⟨b :: bs, s₂, ⟨s₁, hr, h4⟩, h5, by rw [hl, h6]⟩
      · obtain ⟨bs, c, h4, h5, h6, h7⟩ := this
        exact ⟨b :: bs, c, ⟨s₁, hr, h4⟩, by rw [hl, h5], by rw [List.cons_append, hl, h6], h7⟩

/-- More bytes are only looked at while the end of the input is reported. -/
private theorem loop_more (fuel : Nat) : ∀ (ln nth : Nat) (bs cs : Bytes), decodeCompactLoop ln nth fuel bs ≠ .err .eof →
    decodeCompactLoop ln nth fuel (bs ++ cs) = decodeCompactLoop ln nth fuel bs := by
  induction fuel with
  | zero => intros; rfl
  | succ f ih =>
    intro ln nth bs cs h
    cases bs with
    | nil => exact absurd rfl h
    | cons b bs =>
      rw [List.cons_append, decodeCompactLoop, decodeCompactLoop]
      rw [decodeCompactLoop] at h
      split
      · rfl
      rename_i h1
      rw [if_neg h1] at h
      split
      · rfl
      rename_i h2
      rw [if_neg h2] at h
      simp only at h ⊢
      split
      · rfl
      rename_i h3
      rw [if_neg h3] at h
      exact ih _ _ _ _ h
end

/-- `bs` is the beginning of a length that is not complete yet. -/
def Unfinished (bs : Bytes) : Prop := bs.length < 3 ∧ ∀ b ∈ bs, 128 ≤ b.toNat

private theorem and80_ne (b : UInt8) : (b &&& 0x80 ≠ 0) ↔ 128 ≤ b.toNat := by
  rw [Ne, and80_eq_zero]; omega

theorem slice_eof_iff (bs : Bytes) : decodeCompactU16 bs = .err .eof ↔ decodeCompactLoop 0 0 3 bs = .err .eof := by
  unfold decodeCompactU16
  rcases decodeCompactLoop 0 0 3 bs with ⟨l, k⟩ | e | _
  · simp only
    split
    · simp
    · split <;> simp
  · simp
  · simp

/-- The slice decoder reports the end of the input exactly for these. -/
theorem C101_unfinished (bs : Bytes) : decodeCompactU16 bs = .err .eof ↔ Unfinished bs := by
  rw [slice_eof_iff]
  have z : ∀ b : UInt8, 128 ≤ b.toNat → b ≠ 0 := by
    intro b h h0; rw [h0] at h; simp at h
  unfold Unfinished
  rcases bs with _ | ⟨a, _ | ⟨b, _ | ⟨c, bs⟩⟩⟩
  · simp [decodeCompactLoop]
  · by_cases ha : a &&& 0x80 = 0
    · have := (and80_eq_zero a).mp ha
      simp [decodeCompactLoop, ha]; omega
    · have := (and80_ne a).mp ha
      simp [decodeCompactLoop, ha]; omega
  · by_cases ha : a &&& 0x80 = 0
    · have := (and80_eq_zero a).mp ha
      simp [decodeCompactLoop, ha]; omega
    · have ha' := (and80_ne a).mp ha
      by_cases hb : b &&& 0x80 = 0
      · have := (and80_eq_zero b).mp hb
        by_cases h0 : b = 0 <;> simp [decodeCompactLoop, ha, hb, h0]
        omega
      · have hb' := (and80_ne b).mp hb
        simp [decodeCompactLoop, ha, hb, z b hb', ha', hb']
  · have : decodeCompactLoop 0 0 3 (a :: b :: c :: bs) ≠ .err .eof := by
      simp only [decodeCompactLoop]
      repeat' split
      all_goals simp
    constructor
    · intro h; exact absurd h this
    · intro h; simp at h; omega

/-- The loop reports no more than it was given, and no more than three. -/
private theorem loop_size : ∀ (fuel ln nth : Nat) (xs : Bytes) (q : Nat × Nat), decodeCompactLoop ln nth fuel xs = .ok q →
    q.2 ≤ nth + xs.length ∧ q.2 ≤ nth + fuel := by
  intro fuel
  induction fuel with
  | zero => intro ln nth xs q h; simp only [decodeCompactLoop, Res.ok.injEq] at h; rw [← h]; simp
  | succ f ih =>
    intro ln nth xs q h
    cases xs with
    | nil => simp [decodeCompactLoop] at h
    | cons y ys =>
      simp only [decodeCompactLoop] at h
      repeat' split at h
      · simp at h
      · simp at h
      · simp only [Res.ok.injEq] at h; rw [← h]; simp
      · have := ih _ _ _ _ h
        simp only [List.length_cons]; omega

private theorem top {σ ε : Type} (r : ByteReader σ ε) (s : σ) :
    match decodeCompactFromByteReader r s with
    | (.ok n, s') => ∃ bs, Reads r s bs s' ∧ decodeCompactU16 bs = .ok (n, bs.length)
    | (.own e, s') => ∃ bs b, Reads r s (bs ++ [b]) s' ∧ decodeCompactU16 bs = .err .eof ∧ decodeCompactU16 (bs ++ [b]) = .err e ∧ e ≠ .eof
    | (.reader x, s') => ∃ bs s₁, Reads r s bs s₁ ∧ r s₁ = (.error x, s') ∧ decodeCompactU16 bs = .err .eof := by
  have h := loop_forward (r := r) 3 0 0 s
  have hge : ∀ (bs : Bytes) (p : Nat × Nat), decodeCompactLoop 0 0 3 bs = .ok p → p.2 = bs.length → 0 < bs.length ∧ bs.length ≤ 3 := by
    intro bs p h h'
    have := (loop_size _ _ _ _ _ h).2
    cases bs with
    | nil => simp [decodeCompactLoop] at h
    | cons b bs => exact ⟨by simp, by omega⟩
  unfold decodeCompactFromByteReader
  rcases hb : byteReaderLoop r 0 0 3 s with ⟨⟨l, k⟩ | x | e, s'⟩ <;> rw [hb] at h <;> simp only
  · obtain ⟨bs, h1, h2, h3⟩ := h
    simp only [Nat.zero_add] at h3
    obtain ⟨h4, h5⟩ := hge bs (l, k) h2 h3
    rw [if_neg (by omega)]
    have hd : decodeCompactU16 bs = if l > 65535 then .err .badCompact else .ok (l, k) := by
      unfold decodeCompactU16
      rw [h2]
      simp only
      rw [if_neg (by omega)]
    by_cases hbig : l > 65535
    · rw [if_pos hbig]
      rw [if_pos hbig] at hd
      have hne : bs ≠ [] := by intro h; rw [h] at h4; simp at h4
      refine ⟨bs.dropLast, bs.getLast hne, ?_, ?_, ?_, by simp⟩
      · rw [List.dropLast_concat_getLast]; exact h1
      · rw [slice_eof_iff]
        refine Classical.byContradiction fun hn => ?_
        have := loop_more 3 0 0 _ [bs.getLast hne] hn
        rw [List.dropLast_concat_getLast, h2] at this
        have := (loop_size _ _ _ _ _ this.symm).1
        simp only [List.length_dropLast] at this
        omega
      · rw [List.dropLast_concat_getLast]; exact hd
    · rw [if_neg hbig]
      rw [if_neg hbig] at hd
      exact ⟨bs, h1, by rw [hd, h3]⟩
  · obtain ⟨bs, s₁, h1, h2, h3⟩ := h
    exact ⟨bs, s₁, h1, h2, (slice_eof_iff _).mpr h3⟩
  · obtain ⟨bs, b, h1, h2, h3, h4⟩ := h
    refine ⟨bs, b, h1, (slice_eof_iff _).mpr h2, ?_, h4⟩
    unfold decodeCompactU16
    rw [h3]

private theorem eof_prefix {bs cs : Bytes} (h : decodeCompactU16 (bs ++ cs) = .err .eof) : decodeCompactU16 bs = .err .eof := by
  rw [C101_unfinished] at h ⊢
  exact ⟨by have := h.1; simp at this; omega, fun b hb => h.2 b (by simp [hb])⟩

/-- Of two sequences that the reader can return, one begins the other. -/
private theorem reads_comparable {σ ε : Type} {r : ByteReader σ ε} {bs cs : Bytes} {s s₁ s₂ : σ} (h1 : Reads r s bs s₁) (h2 : Reads r s cs s₂) :
    (∃ ds, cs = bs ++ ds ∧ Reads r s₁ ds s₂) ∨ (∃ ds, bs = cs ++ ds ∧ Reads r s₂ ds s₁) := by
  induction bs generalizing cs s with
  | nil => exact Or.inl ⟨cs, rfl, h1 ▸ h2⟩
  | cons b bs ih =>
    cases cs with
    | nil => exact Or.inr ⟨b :: bs, rfl, h2 ▸ h1⟩
    | cons c cs =>
      obtain ⟨t, h3, h4⟩ := h1
      obtain ⟨t', h5, h6⟩ := h2
      rw [h3] at h5
      simp only [Prod.mk.injEq, Except.ok.injEq] at h5
      obtain ⟨rfl, rfl⟩ := h5
      rcases ih h4 h6 with ⟨ds, rfl, h⟩ | ⟨ds, rfl, h⟩
      · exact Or.inl ⟨ds, rfl, h⟩
      · exact Or.inr ⟨ds, rfl, h⟩

/-- The bytes after which the function stops reading: all it looks at. -/
def Decided (bs : Bytes) : Prop := ∃ init last, bs = init ++ [last] ∧ Unfinished init ∧ ¬ Unfinished bs

private theorem decided_unique {bs cs ds : Bytes} (h1 : Decided bs) (h2 : Decided cs) (h : cs = bs ++ ds) : ds = [] := by
  obtain ⟨i, l, rfl, hi, hb⟩ := h1
  obtain ⟨i', l', rfl, hi', hb'⟩ := h2
  rcases List.eq_nil_or_concat ds with rfl | ⟨ds', d, rfl⟩
  · rfl
  · exfalso
    rw [List.concat_eq_append, ← List.append_assoc] at h
    obtain ⟨h3, _⟩ := List.append_inj' h rfl
    apply hb
    rw [h3] at hi'
    rw [← C101_unfinished] at hi' ⊢
    exact eof_prefix hi'

private theorem decided_of_ok {bs : Bytes} {n : Nat} (h : decodeCompactU16 bs = .ok (n, bs.length)) : Decided bs := by
  have hne : bs ≠ [] := by rintro rfl; simp [decodeCompactU16, decodeCompactLoop] at h
  refine ⟨bs.dropLast, bs.getLast hne, (List.dropLast_concat_getLast hne).symm, ?_, ?_⟩
  · rw [← C101_unfinished]
    obtain ⟨hn, hl, t, ht⟩ := (decodeCompactU16_ok_iff _ _ _).mp h
    have : t = [] := by
      have := congrArg List.length ht
      rw [List.length_append, hl] at this
      exact List.length_eq_zero_iff.mp (by omega)
    rw [this, List.append_nil] at ht
    rw [C101_unfinished, ht]
    unfold compact
    split
    · exact ⟨by simp, by simp⟩
    · split
      · refine ⟨by simp, ?_⟩
        intro b hb
        simp only [List.dropLast_cons_cons, List.dropLast_singleton, List.mem_singleton] at hb
        rw [hb]; simp; omega
      · refine ⟨by simp, ?_⟩
        intro b hb
        simp only [List.dropLast_cons_cons, List.dropLast_singleton, List.mem_cons, List.not_mem_nil, or_false] at hb
        rcases hb with rfl | rfl <;> simp <;> omega
  · rw [← C101_unfinished, h]; simp

/-- The whole behaviour on any reader: it is asked for bytes until they decide, or until it fails, and never again; the answer is then that of
the slice decoder on exactly these bytes, or the reader's error. -/
theorem C101_run {σ ε : Type} (r : ByteReader σ ε) (s : σ) :
    (∀ bs s', Reads r s bs s' → Decided bs → decodeCompactFromByteReader r s =
      ((match decodeCompactU16 bs with
        | .ok (n, _) => .ok n
        | .err e => .own e
        | .panic => .own .badCompact), s')) ∧
    (∀ bs s₁ x s', Reads r s bs s₁ → Unfinished bs → r s₁ = (.error x, s') → decodeCompactFromByteReader r s = (.reader x, s')) ∧
    ((∃ bs s', Reads r s bs s' ∧ Decided bs) ∨ ∃ bs s₁ x s', Reads r s bs s₁ ∧ Unfinished bs ∧ r s₁ = (.error x, s')) := by
  have h := top r s
  have key : ∀ bs s₁ x s', Reads r s bs s₁ → Unfinished bs → r s₁ = (.error x, s') → ∀ cs s₂, Reads r s cs s₂ →
      ∃ ds, bs = cs ++ ds ∧ Reads r s₂ ds s₁ := by
    intro bs s₁ x s' h1 h2 h3 cs s₂ h4
    rcases reads_comparable h1 h4 with ⟨ds, rfl, h5⟩ | h5
    · cases ds with
      | nil => exact ⟨[], by simp, h5.symm⟩
      | cons d ds => obtain ⟨t, h6, _⟩ := h5; rw [h3] at h6; simp at h6
    · exact h5
  rcases hd : decodeCompactFromByteReader r s with ⟨n | x | e, s'⟩ <;> rw [hd] at h <;> simp only at h
  · obtain ⟨bs, h1, h2⟩ := h
    have hdec := decided_of_ok h2
    refine ⟨fun cs s₂ h3 h4 => ?_, fun cs s₁ x s₂ h3 h4 h5 => ?_, Or.inl ⟨bs, s', h1, hdec⟩⟩
    · rcases reads_comparable h1 h3 with ⟨ds, rfl, h6⟩ | ⟨ds, rfl, h6⟩
      · have := decided_unique hdec h4 rfl
        subst this
        rw [List.append_nil, h2, show s' = s₂ from h6]
      · have := decided_unique h4 hdec rfl
        subst this
        rw [List.append_nil] at h2
        rw [h2, show s₂ = s' from h6]
    · obtain ⟨ds, rfl, _⟩ := key cs s₁ x s₂ h3 h4 h5 bs s' h1
      rw [← C101_unfinished] at h4
      rw [eof_prefix h4] at h2
      simp at h2
  · obtain ⟨bs, s₁, h1, h2, h3⟩ := h
    rw [C101_unfinished] at h3
    refine ⟨fun cs s₂ h4 h5 => ?_, fun cs s₂ y s₃ h4 h5 h6 => ?_, Or.inr ⟨bs, s₁, x, s', h1, h3, h2⟩⟩
    · obtain ⟨ds, rfl, _⟩ := key bs s₁ x s' h1 h3 h2 cs s₂ h4
      obtain ⟨_, _, _, _, hn⟩ := h5
      rw [← C101_unfinished] at h3
      exact absurd ((C101_unfinished _).mp (eof_prefix h3)) hn
    · obtain ⟨ds, rfl, h7⟩ := key bs s₁ x s' h1 h3 h2 cs s₂ h4
      cases ds with
      | nil =>
        have : s₂ = s₁ := h7
        rw [this, h2] at h6
        simp only [Prod.mk.injEq, Except.error.injEq] at h6
        rw [h6.1, h6.2]
      | cons d ds => obtain ⟨t, h8, _⟩ := h7; rw [h6] at h8; simp at h8
  · obtain ⟨bs, b, h1, h2, h3, h4⟩ := h
    have hdec : Decided (bs ++ [b]) := by
      refine ⟨bs, b, rfl, (C101_unfinished _).mp h2, ?_⟩
      rw [← C101_unfinished, h3]
      simpa using h4
    refine ⟨fun cs s₂ h5 h6 => ?_, fun cs s₁ x s₂ h5 h6 h7 => ?_, Or.inl ⟨_, s', h1, hdec⟩⟩
    · rcases reads_comparable h1 h5 with ⟨ds, rfl, h8⟩ | ⟨ds, hds, h8⟩
      · have := decided_unique hdec h6 rfl
        subst this
        rw [List.append_nil, h3, show s' = s₂ from h8]
      · have := decided_unique h6 hdec hds
        subst this
        rw [List.append_nil] at hds
        rw [← hds, h3, show s₂ = s' from h8]
    · obtain ⟨ds, rfl, _⟩ := key cs s₁ x s₂ h5 h6 h7 _ s' h1
      rw [← C101_unfinished] at h6
      have := eof_prefix h6
      rw [h3] at this
      simp only [Res.err.injEq] at this
      exact absurd this h4

/-- A length is returned exactly if the reader returns its canonical encoding; nothing behind it is read. -/
theorem C101_ok {σ ε : Type} (r : ByteReader σ ε) (s s' : σ) (n : Nat) :
    decodeCompactFromByteReader r s = (.ok n, s') ↔ n ≤ 65535 ∧ Reads r s (compact n) s' := by
  constructor
  · intro h
    have ht := top r s
    rw [h] at ht
    obtain ⟨bs, h1, h2⟩ := ht
    obtain ⟨hn, hl, t, ht⟩ := (decodeCompactU16_ok_iff _ _ _).mp h2
    have : t = [] := by
      have := congrArg List.length ht
      rw [List.length_append, hl] at this
      exact List.length_eq_zero_iff.mp (by omega)
    rw [this, List.append_nil] at ht
    exact ⟨hn, ht ▸ h1⟩
  · rintro ⟨hn, h⟩
    have h2 : decodeCompactU16 (compact n) = .ok (n, (compact n).length) :=
      (decodeCompactU16_ok_iff _ _ _).mpr ⟨hn, rfl, [], by simp⟩
    rw [(C101_run r s).1 _ _ h (decided_of_ok h2), h2]

/-- The reader's error is passed on, if it comes before the length is complete. -/
theorem C101_error {σ ε : Type} (r : ByteReader σ ε) (s s' : σ) (x : ε) :
    decodeCompactFromByteReader r s = (.reader x, s') ↔ ∃ bs s₁, Reads r s bs s₁ ∧ Unfinished bs ∧ r s₁ = (.error x, s') := by
  constructor
  · intro h
    have ht := top r s
    rw [h] at ht
    obtain ⟨bs, s₁, h1, h2, h3⟩ := ht
    exact ⟨bs, s₁, h1, (C101_unfinished _).mp h3, h2⟩
  · rintro ⟨bs, s₁, h1, h2, h3⟩
    exact (C101_run r s).2.1 _ _ _ _ h1 h2 h3

/-- At most three bytes are read. -/
theorem C101_three (bs : Bytes) (h : Decided bs ∨ Unfinished bs) : bs.length ≤ 3 := by
  rcases h with ⟨i, l, rfl, h, _⟩ | h
  · have := h.1; simp; omega
  · have := h.1; omega

private theorem bytesReader_reads (b rest : Bytes) : Reads bytesReader (b ++ rest) b rest := by
  induction b with
  | nil => rfl
  | cons x b ih => exact ⟨b ++ rest, rfl, ih⟩

/-- A `bytes.Reader` that ends inside a length: the error is `io.EOF`, although the input is cut off, for each such input. -/
theorem C101_truncated (b : Bytes) (h : Unfinished b) :
    decodeCompactFromByteReader bytesReader b = (.reader .eof, []) ∧ decodeCompactU16 b = .err .eof := by
  refine ⟨(C101_error _ _ _ _).mpr ⟨b, [], ?_, h, rfl⟩, (C101_unfinished b).mpr h⟩
  have := bytesReader_reads b []
  rwa [List.append_nil] at this

/-- `[0x80]` is the beginning of a length, and the error says that there was nothing to read. -/
theorem C101_violated : Unfinished [0x80] ∧ decodeCompactFromByteReader bytesReader [0x80] = (.reader .eof, []) :=
  ⟨⟨by decide, by decide⟩, by decide⟩

/-- Readers that fail in their own way: one that is at the third call of `ReadByte` when the connection breaks. -/
example :
    let r : ByteReader Nat String := fun i => if i = 2 then (.error "reset", 3) else (.ok 0x81, i + 1)
    decodeCompactFromByteReader r 0 = (.reader "reset", 3) ∧ decodeCompactFromByteReader r 1 = (.reader "reset", 3) ∧
    decodeCompactFromByteReader r 3 = (.own .continues, 6) := by decide

example : decodeCompactFromByteReader bytesReader [0xff, 0x01, 9, 9] = (.ok 255, [9, 9]) ∧ compact 255 = [0xff, 0x01] ∧
    decodeCompactFromByteReader bytesReader [0x80, 0, 9] = (.own .alias, [9]) ∧
    decodeCompactFromByteReader bytesReader [0xff, 0xff, 4, 9] = (.own .badCompact, [9]) := by decide

example : Decided [0xff, 0x01] := ⟨[0xff], 0x01, rfl, ⟨by decide, by decide⟩, fun h => by have := h.2 1 (by simp); revert this; decide⟩

end Verif.Props
