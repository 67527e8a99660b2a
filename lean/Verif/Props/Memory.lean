import Verif.Model.Memory
import Verif.Proofs.Reads
/-! Properties C54 and C56: recording writers and sharing of memory. -/
namespace Verif.Props
open Verif

/-- The slice lies inside its array. -/
def InArray (m : Mem) (s : Slice) : Prop := s.off + s.len ≤ (m s.addr).length ∧ s.len ≤ s.cap

/-- A decoder over a slice in memory, cursor inside. -/
def RefOk (m : Mem) (d : RefDec) : Prop := InArray m d.data ∧ 0 ≤ d.pos ∧ d.pos ≤ d.data.len

theorem read_length {m : Mem} {s : Slice} (h : InArray m s) : (m.read s).length = s.len := by
  unfold Mem.read; rw [List.length_take, List.length_drop]; have := h.1; omega

theorem abs_ok {m : Mem} {d : RefDec} (h : RefOk m d) : (d.abs m).Ok := by
  refine ⟨h.2.1, ?_⟩
  show d.pos ≤ ((m.read d.data).length : Int)
  rw [read_length h.1]; exact h.2.2

theorem read_sub (m : Mem) (s : Slice) (i n : Nat) (h : i + n ≤ s.len) :
    m.read (s.sub i n) = ((m.read s).drop i).take n := by
  simp only [Mem.read, Slice.sub]
  rw [List.drop_take, List.drop_drop, List.take_take]
  congr 1
  omega

/-- The by-reference reader does what the by-value one does; what it returns now is what the model says. -/
theorem C56_readNBytes_value (m : Mem) (d : RefDec) (h : RefOk m d) (n : Int) :
    readNBytes n (d.abs m) = (match (refReadNBytes n d).1 with
      | .ok s => .ok (m.read s)
      | .err x => .err x
      | .panic => .panic, ((refReadNBytes n d).2).abs m) := by
  have hl : (d.abs m).rest.length = d.data.len - d.pos.toNat := by
    show ((m.read d.data).drop d.pos.toNat).length = _
    rw [List.length_drop, read_length h.1]
  have h0 := h.2.1
  have h1 := h.2.2
  rw [readNBytes_eq (abs_ok h)]
  unfold refReadNBytes
  split
  · simp [emptySlice, Mem.read]
  · split
    · rfl
    · rename_i hn hb
      by_cases hlt : d.pos + n > d.data.len
      · rw [if_pos (by omega), if_pos hlt]
      · rw [if_neg (by omega), if_neg hlt]
        simp only []
        rw [read_sub m d.data _ _ (by omega)]
        congr 1
        simp only [Dec.adv, RefDec.abs]
        rw [Int.toNat_of_nonneg (by omega)]

/-- C56 is false of the code in general: a non-empty byte slice returned by `ReadNBytes`/`ReadBytes` (also by
`ReadByteSlice` and `Peek`, and stored by `Decode` into `[]byte` and `HexBytes`) is a window on the input: whatever
later happens to the input happens to the decoded value. -/
theorem C56_window (m : Mem) (d : RefDec) (h : RefOk m d) (n : Int) (hn : n ≠ 0) (s : Slice) (d' : RefDec)
    (hr : refReadNBytes n d = (.ok s, d')) (m' : Mem) :
    m'.read s = ((m'.read d.data).drop d.pos.toNat).take n.toNat := by
  unfold refReadNBytes at hr
  rw [if_neg hn] at hr
  split at hr
  · cases hr
  · split at hr
    · cases hr
    · rename_i hb hlt
      simp only [Prod.mk.injEq, Res.ok.injEq] at hr
      rw [← hr.1]
      have := h.2.1
      exact read_sub m' d.data _ _ (by omega)

/-- `Peek` by reference does what the by-value one does, and what it returns is a window on the input. -/
theorem C56_peek (m : Mem) (d : RefDec) (h : RefOk m d) (n : Int) :
    peek n (d.abs m) = (match (refPeek n d).1 with
      | .ok s => .ok (m.read s)
      | .err x => .err x
      | .panic => .panic, d.abs m) ∧ (refPeek n d).2 = d ∧
    ∀ s, (refPeek n d).1 = .ok s → ∀ m' : Mem, m'.read s = ((m'.read d.data).drop d.pos.toNat).take n.toNat := by
  have hl : (d.abs m).rest.length = d.data.len - d.pos.toNat := by
    show ((m.read d.data).drop d.pos.toNat).length = _
    rw [List.length_drop, read_length h.1]
  have h0 := h.2.1
  have h1 := h.2.2
  rw [peek_eq (abs_ok h)]
  unfold refPeek
  by_cases hn : n < 0
  · simp [hn]
  rw [if_neg hn, if_neg hn]
  by_cases hlt : (d.data.len : Int) - d.pos < n
  · rw [if_pos (by omega), if_pos hlt]
    exact ⟨rfl, rfl, by simp⟩
  · rw [if_neg (by omega), if_neg hlt]
    refine ⟨?_, rfl, ?_⟩
    · simp only []
      rw [read_sub m d.data _ _ (by omega)]
      rfl
    · intro s hs m'
      cases hs
      exact read_sub m' d.data _ _ (by omega)

/-- `ReadByteSlice` by reference: the same value as by value, and a window on the input that ends at the new cursor. -/
theorem C56_readByteSlice (m : Mem) (d : RefDec) (h : RefOk m d) (he : d.enc.valid = true) :
    readByteSlice (d.abs m) = (match (refReadByteSlice m d).1 with
      | .ok s => .ok (m.read s)
      | .err x => .err x
      | .panic => .panic, (refReadByteSlice m d).2.abs m) ∧
    ∀ s, (refReadByteSlice m d).1 = .ok s → ∀ m' : Mem,
      m'.read s = ((m'.read d.data).drop ((refReadByteSlice m d).2.pos.toNat - s.len)).take s.len ∧
      s.len ≤ (refReadByteSlice m d).2.pos.toNat := by
  obtain ⟨res, k, hr, hp, hk⟩ := readLength_prim (d.abs m) (abs_ok h) he
  have hl : (d.abs m).rest.length = d.data.len - d.pos.toNat := by
    show ((m.read d.data).drop d.pos.toNat).length = _
    rw [List.length_drop, read_length h.1]
  have h0 := h.2.1
  have h1 := h.2.2
  rw [readByteSlice_def]
  unfold refReadByteSlice
  rw [hr]
  have habs : ∀ p : Int, ({ d with pos := p } : RefDec).abs m = { (d.abs m) with pos := p } := fun _ => rfl
  have hpos : ((d.abs m).adv k).pos = d.pos + k := rfl
  cases res with
  | panic => exact absurd rfl hp
  | err x =>
    rw [M.bind_err hr]
    exact ⟨rfl, by simp⟩
  | ok n =>
    rw [M.bind_ok hr, sliceBody_eq (Dec.adv_ok (abs_ok h) hk)]
    have hrl : ((d.abs m).adv k).rest.length = d.data.len - (d.pos.toNat + k) := by
      rw [Dec.adv_rest (abs_ok h), List.length_drop, hl]; omega
    simp only [hpos]
    by_cases hlt : (d.data.len : Int) < d.pos + k + n
    · rw [if_pos (by omega), if_pos hlt]
      exact ⟨rfl, by simp⟩
    · rw [if_neg (by omega), if_neg hlt]
      refine ⟨?_, ?_⟩
      · simp only []
        rw [read_sub m d.data _ _ (by omega)]
        congr 1
      · intro s hs m'
        cases hs
        refine ⟨?_, ?_⟩
        · rw [read_sub m' d.data _ _ (by omega)]
          show _ = List.take n (List.drop ((d.pos + k + n).toNat - n) _)
          rw [show (d.pos + k + n).toNat - n = (d.pos + k).toNat by omega]
        · show n ≤ (d.pos + k + n).toNat
          omega

/-- One array holding the input. -/
def mem1 : Mem := fun a => if a = 1 then [10, 20, 30, 40] else []
/-- The input starts with the length prefix 2. -/
def mem2 : Mem := fun a => if a = 1 then [2, 20, 30, 40] else []
/-- A decoder over all of it. -/
def dec1 : RefDec := { data := { addr := 1, off := 0, len := 4, cap := 4 }, pos := 0, cur := none, enc := .bin }

example : RefOk mem1 dec1 := by unfold RefOk InArray; decide

/-- C56 is false of the code (decoder.go:241, 291): after reading two bytes, changing the input changes them; and
appending to them overwrites the input that has not been decoded yet. -/
theorem C56_violated :
    ∃ s d', refReadNBytes 2 dec1 = (.ok s, d') ∧ mem1.read s = [10, 20] ∧
      (mem1.store 1 0 [99]).read s = [99, 20] ∧
      (readNBytes 2 (d'.abs mem1)).1 = .ok [30, 40] ∧
      (readNBytes 2 (d'.abs (mem1.append 2 s [77]).1)).1 = .ok [77, 40] := by
  exact ⟨_, _, rfl, by decide, by decide, by decide, by decide⟩

/-- C56 is false for every input and every count: appending to the bytes returned by `ReadNBytes` replaces the unread input,
up to all of it; only a longer append leaves it alone. -/
theorem C56_violated_append (m : Mem) (d : RefDec) (h : RefOk m d) (hcap : d.data.cap = d.data.len) (n : Nat) (hn : 0 < n)
    (s : Slice) (d' : RefDec) (hr : refReadNBytes n d = (.ok s, d')) (fresh : Nat) (hf : fresh ≠ d.data.addr) (bs : Bytes) :
    (d'.abs (m.append fresh s bs).1).rest =
      if bs.length ≤ (d'.abs m).rest.length then bs ++ (d'.abs m).rest.drop bs.length else (d'.abs m).rest := by
  have h0 := h.2.1
  unfold refReadNBytes at hr
  rw [if_neg (by omega)] at hr
  split at hr
  · cases hr
  · split at hr
    · cases hr
    · rename_i hle
      simp only [Prod.mk.injEq, Res.ok.injEq] at hr
      obtain ⟨rfl, rfl⟩ := hr
      obtain ⟨p, hp⟩ : ∃ p : Nat, d.pos = p := ⟨d.pos.toNat, by omega⟩
      have ha := h.1.1
      have hl : ((d.data.len : Int)) = (d.data.len : Nat) := rfl
      rw [hp] at hle ⊢
      have hq : p + n ≤ d.data.len := by omega
      have e1 : ((p : Int) + (n : Int)).toNat = p + n := by omega
      have e2 : ((n : Int)).toNat = n := by omega
      have e3 : ((p : Int)).toNat = p := by omega
      have hrest : ∀ m' : Mem, (RefDec.abs { d with pos := (p : Int) + n } m').rest =
          ((m' d.data.addr).drop (d.data.off + (p + n))).take (d.data.len - (p + n)) := by
        intro m'
        show ((m'.read d.data).drop ((p : Int) + n).toNat) = _
        rw [e1, Mem.read, List.drop_take, List.drop_drop]
      have hlen : (RefDec.abs { d with pos := (p : Int) + n } m).rest.length = d.data.len - (p + n) := by
        rw [hrest, List.length_take, List.length_drop]; omega
      rw [hlen]
      simp only [e2, e3, Mem.append, Slice.sub, hcap]
      by_cases hb : bs.length ≤ d.data.len - (p + n)
      · rw [if_pos (by omega), if_pos hb]
        simp only [hrest]
        simp only [Mem.store, if_true]
        generalize m d.data.addr = w at ha
        rw [List.append_assoc, List.drop_append, List.length_take, Nat.min_eq_left (by omega),
          List.drop_eq_nil_of_le (by rw [List.length_take]; omega), List.nil_append,
          show d.data.off + (p + n) - (d.data.off + p + n) = 0 by omega, List.drop_zero, List.take_append,
          List.take_of_length_le (by omega), List.drop_take, List.drop_drop]
        congr 2
        congr 1
        omega
      · rw [if_neg (by omega), if_neg hb]
        simp only [hrest]
        rw [if_neg (fun hc => hf hc.symm)]

/-- Two bytes are unread: appending two replaces them, appending three does not. -/
example : ∃ s d', refReadNBytes 2 dec1 = (.ok s, d') ∧ (d'.abs (mem1.append 2 s [77, 78]).1).rest = [77, 78] ∧
    (d'.abs (mem1.append 2 s [77, 78, 79]).1).rest = [30, 40] :=
  ⟨_, _, rfl, by decide +kernel, by decide +kernel⟩

/-- The same for `Peek` and `ReadByteSlice`. -/
theorem C56_violated_slice :
    (∃ s, (refPeek 2 dec1).1 = .ok s ∧ mem1.read s = [10, 20] ∧ (mem1.store 1 0 [99]).read s = [99, 20]) ∧
    ∃ s, (refReadByteSlice mem2 dec1).1 = .ok s ∧ mem2.read s = [20, 30] ∧ (mem2.store 1 1 [99]).read s = [99, 30] :=
  ⟨⟨_, rfl, by decide, by decide⟩, ⟨{ addr := 1, off := 1, len := 2, cap := 3 }, by decide, by decide, by decide⟩⟩

/-- C56, the part that holds: `Read(buf)` copies, so the bytes it delivers are those the model says and do not change
when the input changes. Missing: every call that returns a `[]byte`. -/
theorem C56_read_partial (m : Mem) (d : RefDec) (h : RefOk m d) (buf : Slice) (hb : InArray m buf)
    (hne : buf.addr ≠ d.data.addr) (d' : RefDec) (m1 : Mem) (hr : refRead m buf d = (.ok (), d', m1)) :
    readInto buf.len (d.abs m) = (.ok (m1.read buf), d'.abs m) ∧
    ∀ i bs, (m1.store d.data.addr i bs).read buf = m1.read buf := by
  unfold refRead at hr
  have h0 := h.2.1
  split at hr
  · cases hr
  · rename_i hlt
    simp only [Prod.mk.injEq, true_and] at hr
    obtain ⟨rfl, rfl⟩ := hr
    have hl : (d.abs m).rest.length = d.data.len - d.pos.toNat := by
      show ((m.read d.data).drop d.pos.toNat).length = _
      rw [List.length_drop, read_length h.1]
    have hsub : (m.read (d.data.sub d.pos.toNat buf.len)).length = buf.len := by
      rw [read_sub m _ _ _ (by omega), List.length_take, List.length_drop, read_length h.1]; omega
    have hrd : (m.store buf.addr buf.off (m.read (d.data.sub d.pos.toNat buf.len))).read buf =
        m.read (d.data.sub d.pos.toNat buf.len) := by
      have hb1 := hb.1
      generalize m.read (d.data.sub d.pos.toNat buf.len) = w at hsub
      simp only [Mem.read, Mem.store, if_true]
      rw [List.append_assoc, List.drop_append, List.length_take, Nat.min_eq_left (by omega), Nat.sub_self, List.drop_zero,
        List.drop_eq_nil_of_le (by simp; omega), List.nil_append, List.take_append, hsub, Nat.sub_self, List.take_zero,
        List.append_nil, List.take_of_length_le (by omega)]
    refine ⟨?_, fun i bs => ?_⟩
    · rw [readInto_eq (abs_ok h), if_neg (by omega), hrd, read_sub m _ _ _ (by omega)]
      rfl
    · simp only [Mem.read, Mem.store, if_neg hne]

/-- The bytes written, taken at the time of each write, as an ordinary buffer would keep them. -/
def buffered (m : Mem) : List RecEv → Bytes
  | [] => []
  | .write b :: evs => m.read b ++ buffered m evs
  | .store a i bs :: evs => buffered (m.store a i bs) evs

/-- The caller never changes an array after handing a slice of it to `Write`. -/
def NoReuse : List RecEv → Prop
  | [] => True
  | .write b :: evs => (∀ a i bs, RecEv.store a i bs ∈ evs → a ≠ b.addr) ∧ NoReuse evs
  | .store _ _ _ :: evs => NoReuse evs

theorem recRun_read (evs : List RecEv) : ∀ (m : Mem) (ws : List Slice) (b : Slice),
    (∀ a i bs, RecEv.store a i bs ∈ evs → a ≠ b.addr) → (recRun m ws evs).1.read b = m.read b := by
  induction evs with
  | nil => intro m ws b _; rfl
  | cons ev evs ih =>
    intro m ws b h
    cases ev with
    | write c => exact ih m _ b fun a i bs hm => h a i bs (by simp [hm])
    | store a i bs =>
      rw [recRun, ih _ _ b fun a i bs hm => h a i bs (by simp [hm])]
      have := h a i bs (by simp)
      simp only [Mem.read, Mem.store, if_neg (Ne.symm this)]

theorem recRun_bytes (evs : List RecEv) : ∀ (m : Mem) (ws : List Slice), NoReuse evs →
    recBytes (recRun m ws evs).1 (recRun m ws evs).2 = recBytes (recRun m ws evs).1 ws ++ buffered m evs := by
  induction evs with
  | nil => intro m ws _; simp [recRun, buffered]
  | cons ev evs ih =>
    intro m ws h
    cases ev with
    | write b =>
      simp only [recRun, buffered]
      rw [ih m (ws ++ [b]) h.2]
      have := recRun_read evs m (ws ++ [b]) b h.1
      simp only [recBytes, List.flatMap_append, List.flatMap_cons, List.flatMap_nil, List.append_nil, this, List.append_assoc]
    | store a i bs =>
      simp only [recRun, buffered]
      exact ih _ ws h

/-- C54: as long as the caller does not change buffers it has written from, `Bytes()` is the concatenation of everything
written, in order, as a plain buffer would hold it. Missing: callers that reuse their buffer, as `io.Writer` allows. -/
theorem C54_bytes_partial (m : Mem) (evs : List RecEv) (h : NoReuse evs) :
    recBytes (recRun m [] evs).1 (recRun m [] evs).2 = buffered m evs := by
  rw [recRun_bytes evs m [] h]; simp [recBytes]

/-- C54: chunking does not matter: writing a slice is writing its two halves. -/
theorem C54_chunking (m : Mem) (ws us : List Slice) (b : Slice) (k : Nat) (hk : k ≤ b.len) :
    recBytes m (ws ++ [b] ++ us) = recBytes m (ws ++ [b.sub 0 k, b.sub k (b.len - k)] ++ us) := by
  simp only [recBytes, List.flatMap_append, List.flatMap_cons, List.flatMap_nil, List.append_nil]
  rw [read_sub m b 0 k (by omega), read_sub m b k _ (by omega), List.drop_zero]
  have hl : (m.read b).length ≤ b.len := by simp [Mem.read]; omega
  rw [List.take_of_length_le (l := (m.read b).drop k) (by rw [List.length_drop]; omega), List.take_append_drop]

example : NoReuse [.store 1 0 [7], .write { addr := 1, off := 0, len := 2, cap := 4 },
    .write { addr := 1, off := 2, len := 2, cap := 2 }] := by
  simp [NoReuse]

/-- C54 is false of the code (tools.go:52-55 keeps the caller's slice): a caller that fills one buffer twice gets the second
content twice, where a plain buffer holds both. -/
theorem C54_violated :
    let evs := [RecEv.write ⟨1, 0, 4, 4⟩, .store 1 0 [50, 60, 70, 80], .write ⟨1, 0, 4, 4⟩]
    buffered mem1 evs = [10, 20, 30, 40, 50, 60, 70, 80] ∧
    recBytes (recRun mem1 [] evs).1 (recRun mem1 [] evs).2 = [50, 60, 70, 80, 50, 60, 70, 80] := by
  decide

end Verif.Props
