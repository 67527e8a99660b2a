import Verif.Proofs.Got
import Verif.Proofs.Bridge
import Verif.Spec.Lengths
/-!
# C71: length-prefixed data is accepted exactly when the declared length is there
-/
set_option linter.unusedSimpArgs false
namespace Verif.Props
open Spec

theorem leValue_eq (b : Bytes) : leValue b = getLE b := by
  induction b with
  | nil => rfl
  | cons x t ih => simp [leValue, getLE, ih]

theorem fixed_leValue {k n : Nat} {p : Bytes} (h : n < 256 ^ k) : p = fixed .le k n ↔ p.length = k ∧ leValue p = n := by
  rw [fixed_eq, leValue_eq]
  constructor
  · rintro rfl
    exact ⟨by simp, getLE_putLE k n h⟩
  · rintro ⟨rfl, rfl⟩
    exact (putLE_getLE p).symm

theorem leValue_lt (p : Bytes) : leValue p < 256 ^ p.length := by rw [leValue_eq]; exact getLE_lt p

theorem decAt_cases {α : Type} {e : Encoding} {r : DM α} {P : Bytes → α → Prop} (ht : Took e r P)
    (hr : ∀ bs a, P bs a → Reads e r bs a) (cur : Option Order) (pre unread : Bytes) (a : α) (d' : Dec) :
    r (decAt e cur pre unread) = (.ok a, d') ↔
      ∃ bs rest, unread = bs ++ rest ∧ P bs a ∧ d' = decAt e cur (pre ++ bs) rest := by
  constructor
  · intro h
    obtain ⟨bs, tail, h1, rfl, h3⟩ := ht _ (decAt_ok _ _ _ _) rfl a d' h
    rw [decAt_rest] at h1
    subst h1
    exact ⟨bs, tail, rfl, h3, decAt_adv _ _ _ _ _⟩
  · rintro ⟨bs, rest, rfl, hp, rfl⟩
    exact (hr bs a hp).consumes cur pre rest

/-- Lengths that `ReadLength` returns. -/
def Length (e : Encoding) (p : Bytes) (n : Nat) : Prop := Declares e p n ∧ n < 2 ^ 31

theorem readLength_took {e : Encoding} (he : e.valid = true) : Took e readLength fun p n => Length e p n := by
  intro d ho hd a d' h
  rw [readLength_enc, hd] at h
  have key : ∀ (r : DM Nat), Took e r (fun p n => Length e p n) → r d = (.ok a, d') →
      ∃ bs tail, d.rest = bs ++ tail ∧ d' = d.adv bs.length ∧ Length e bs a := fun r hr => hr d ho hd a d'
  cases e with
  | other => cases he
  | bin =>
    refine key _ (readUvarint64_took.bind fun p n hn => Took.ite (fun _ => Took.err _) fun hle => Took.pure _ ?_) h
    rw [List.append_nil]
    exact ⟨⟨hn.1, hn.2.1, hn.2.2.1.symm, hn.2.2.2⟩, by omega⟩
  | borsh =>
    refine key _ ((readUint32_took .le).bind fun p n hn => Took.ite (fun _ => Took.err _) fun hle => Took.pure _ ?_) h
    rw [List.append_nil]
    exact ⟨(fixed_leValue (k := 4) hn.1).1 hn.2, by omega⟩
  | compactU16 =>
    refine key _ (readCompactU16_took.weaken fun p n hn => ⟨⟨hn.2, hn.1⟩, by omega⟩) h

theorem readLength_reads' {e : Encoding} (p : Bytes) (n : Nat) (h : Length e p n) : Reads e readLength p n := by
  obtain ⟨hd, hn⟩ := h
  intro d tail he ho hr
  rw [readLength_enc, he]
  cases e with
  | other => exact absurd hd id
  | bin =>
    obtain ⟨hg, h10, rfl, h64⟩ := hd
    have h1 := readUvarint64_reads .bin p hg h10 h64 d tail he ho hr
    simp only []
    rw [M.bind_ok h1, if_neg (by omega)]; rfl
  | borsh =>
    have hp : p = putUint .le 4 n := by
      rw [← fixed_eq]; exact (fixed_leValue (k := 4) (by omega)).2 hd
    subst hp
    have h1 := readUint32_reads .borsh .le n (by omega) d tail he ho hr
    simp only []
    rw [M.bind_ok h1, if_neg (by omega)]; rfl
  | compactU16 =>
    obtain ⟨h1, rfl⟩ := hd
    exact readCompactU16_reads .compactU16 n h1 d tail he ho hr

/-- C71: `ReadLength` returns `n` exactly when the unread bytes start with a prefix declaring `n < 2^31`, and stops after
the prefix. -/
theorem C71_length {e : Encoding} (he : e.valid = true) (cur : Option Order) (pre unread : Bytes) (n : Nat) (d' : Dec) :
    readLength (decAt e cur pre unread) = (.ok n, d') ↔
      ∃ p rest, unread = p ++ rest ∧ Declares e p n ∧ n < 2 ^ 31 ∧ d' = decAt e cur (pre ++ p) rest := by
  rw [decAt_cases (readLength_took he) (fun p n h => readLength_reads' p n h)]
  constructor
  · rintro ⟨p, rest, h1, ⟨h2, h3⟩, h4⟩; exact ⟨p, rest, h1, h2, h3, h4⟩
  · rintro ⟨p, rest, h1, h2, h3, h4⟩; exact ⟨p, rest, h1, ⟨h2, h3⟩, h4⟩

theorem byteSlice_cases {e : Encoding} (he : e.valid = true) (cur : Option Order) (pre unread : Bytes) (b : Bytes) (d' : Dec) :
    readByteSlice (decAt e cur pre unread) = (.ok b, d') ↔
      ∃ p rest, unread = p ++ b ++ rest ∧ Declares e p b.length ∧ b.length < 2 ^ 31 ∧
        d' = decAt e cur (pre ++ p ++ b) rest := by
  rw [decAt_cases (P := fun bs b => ∃ p, bs = p ++ b ∧ Length e p b.length)]
  · constructor
    · rintro ⟨_, rest, h1, ⟨p, rfl, h2, h3⟩, h4⟩
      exact ⟨p, rest, h1, h2, h3, by rw [h4, List.append_assoc]⟩
    · rintro ⟨p, rest, h1, h2, h3, h4⟩
      exact ⟨p ++ b, rest, h1, ⟨p, rfl, h2, h3⟩, by rw [h4, List.append_assoc]⟩
  · rw [readByteSlice_def]
    refine (readLength_took he).bind fun p n hn => (sliceBody_took n).weaken ?_
    rintro bs b ⟨rfl, rfl⟩
    exact ⟨p, rfl, hn⟩
  · rintro _ b ⟨p, rfl, hl⟩
    rw [readByteSlice_def]
    exact (readLength_reads' p _ hl).bind (sliceBody_reads e b)

/-- C71: `ReadByteSlice` and `ReadString` return `b` exactly when the unread bytes are a prefix declaring the length of `b`
(below 2^31), then `b`, then anything; they stop after `b`.  In every other case they return an error. -/
theorem C71_byteSlice {e : Encoding} (he : e.valid = true) (cur : Option Order) (pre unread : Bytes) :
    (∀ b d', readByteSlice (decAt e cur pre unread) = (.ok b, d') ↔
      ∃ p rest, unread = p ++ b ++ rest ∧ Declares e p b.length ∧ b.length < 2 ^ 31 ∧
        d' = decAt e cur (pre ++ p ++ b) rest) ∧
    (readByteSlice (decAt e cur pre unread)).1 ≠ .panic ∧
    readString (decAt e cur pre unread) = readByteSlice (decAt e cur pre unread) := by
  refine ⟨fun b d' => byteSlice_cases he cur pre unread b d', ?_, rfl⟩
  obtain ⟨res, k, h, hp, -⟩ := readByteSlice_prim (decAt e cur pre unread) (decAt_ok _ _ _ _) he
  rw [h]; exact hp

/-- C71: `ReadRustString` likewise, with an 8-byte length in every encoding. -/
theorem C71_rustString {e : Encoding} (he : e.valid = true) (cur : Option Order) (pre unread : Bytes) :
    (∀ b d', readRustString (decAt e cur pre unread) = (.ok b, d') ↔
      ∃ p rest, unread = p ++ b ++ rest ∧ p.length = 8 ∧ leValue p = b.length ∧ b.length < 2 ^ 31 ∧
        d' = decAt e cur (pre ++ p ++ b) rest) ∧
    (readRustString (decAt e cur pre unread)).1 ≠ .panic := by
  constructor
  · intro b d'
    rw [decAt_cases (P := fun bs b => ∃ p, bs = p ++ b ∧ p.length = 8 ∧ leValue p = b.length ∧ b.length < 2 ^ 31)]
    · constructor
      · rintro ⟨_, rest, h1, ⟨p, rfl, h2, h3, h3'⟩, h4⟩
        exact ⟨p, rest, h1, h2, h3, h3', by rw [h4, List.append_assoc]⟩
      · rintro ⟨p, rest, h1, h2, h3, h3', h4⟩
        exact ⟨p ++ b, rest, h1, ⟨p, rfl, h2, h3, h3'⟩, by rw [h4, List.append_assoc]⟩
    · unfold readRustString
      refine (readUint64_took .le).bind fun p n hn => Took.ite (fun _ => Took.err _) fun hle =>
        (readNBytes_took n).weaken ?_
      rintro bs b ⟨rfl, hb, hb'⟩
      have := (fixed_leValue (k := 8) hn.1).1 hn.2
      exact ⟨p, rfl, this.1, by rw [this.2]; omega, hb'⟩
    · rintro _ b ⟨p, rfl, h8, hl, hb⟩
      have hp : p = putUint .le 8 b.length := by
        rw [← fixed_eq]; exact (fixed_leValue (k := 8) (by omega)).2 ⟨h8, hl⟩
      subst hp
      exact readRustString_reads e b (by omega)
  · obtain ⟨res, k, h, hp, -⟩ := readRustString_prim (decAt e cur pre unread) (decAt_ok _ _ _ _) he
    rw [h]; exact hp

/-- C71: a prefix announcing 2^31 or more, or more than what follows, is refused. -/
theorem C71_refused {e : Encoding} (he : e.valid = true) (cur : Option Order) (pre p rest : Bytes) (n : Nat)
    (hp : Declares e p n) (hn : 2 ^ 31 ≤ n ∨ rest.length < n) :
    (∃ x, (readByteSlice (decAt e cur pre (p ++ rest))).1 = .err x) ∧
    (∃ x, (readString (decAt e cur pre (p ++ rest))).1 = .err x) := by
  have hunique : ∀ q t m, p ++ rest = q ++ t → Declares e q m → q = p ∧ m = n := by
    intro q t m h hq
    cases e with
    | other => exact absurd hq id
    | bin =>
      have := groups_unique _ _ h hp.1 hq.1
      subst this
      exact ⟨rfl, by rw [← hp.2.2.1, ← hq.2.2.1]⟩
    | borsh =>
      have : p = q := (List.append_inj h (by rw [hp.1, hq.1])).1
      subst this
      exact ⟨rfl, by rw [← hp.2, ← hq.2]⟩
    | compactU16 =>
      have h1 := (decodeCompactU16_ok_iff (p ++ rest) n (compact n).length).2 ⟨hp.1, rfl, rest, by rw [hp.2]⟩
      have h2 := (decodeCompactU16_ok_iff (p ++ rest) m (compact m).length).2 ⟨hq.1, rfl, t, by rw [h, hq.2]⟩
      rw [h1] at h2
      simp only [Res.ok.injEq, Prod.mk.injEq] at h2
      obtain ⟨rfl, -⟩ := h2
      exact ⟨by rw [hp.2, hq.2], rfl⟩
  have key : ∃ x, (readByteSlice (decAt e cur pre (p ++ rest))).1 = .err x := by
    obtain ⟨h1, h2, -⟩ := C71_byteSlice he cur pre (p ++ rest)
    cases hr : readByteSlice (decAt e cur pre (p ++ rest)) with
    | mk res d' =>
      rw [hr] at h2
      cases res with
      | err x => exact ⟨x, rfl⟩
      | panic => exact absurd rfl h2
      | ok b =>
        exfalso
        obtain ⟨q, t, hu, hq, hb, -⟩ := (h1 b d').1 hr
        rw [List.append_assoc] at hu
        obtain ⟨rfl, hlen⟩ := hunique q (b ++ t) _ hu hq
        have : rest = b ++ t := List.append_cancel_left hu
        subst this
        simp only [List.length_append] at hn
        omega
  exact ⟨key, key⟩

/-- C71: a `SafeString`, and what `HexBytes` reads, consume the same bytes as `ReadByteSlice`. -/
theorem C71_safe {e : Encoding} (he : e.valid = true) (cur : Option Order) (pre unread : Bytes) (s : Bytes) (d' : Dec)
    (h : safeReadUTF8String (decAt e cur pre unread) = (.ok s, d')) :
    ∃ p b rest, unread = p ++ b ++ rest ∧ Declares e p b.length ∧ b.length < 2 ^ 31 ∧ d' = decAt e cur (pre ++ p ++ b) rest := by
  unfold safeReadUTF8String at h
  rw [M.bind_apply] at h
  cases hr : readByteSlice (decAt e cur pre unread) with
  | mk res d1 =>
    rw [hr] at h
    cases res with
    | err x => simp at h
    | panic => simp at h
    | ok b =>
      obtain ⟨p, rest, h1, h2, h3, h4⟩ := ((C71_byteSlice he cur pre unread).1 b d1).1 hr
      simp only [M.pure_apply, Prod.mk.injEq] at h
      exact ⟨p, b, rest, h1, h2, h3, by rw [← h.2, h4]⟩

/-- A three-byte varint for 2: Bin accepts the padding, CompactU16 does not; a Borsh length of 3 with 2 bytes left. -/
example : Declares .bin [0x82, 0x80, 0] 2 ∧ ¬ Declares .compactU16 [0x82, 0x80, 0] 2 ∧ Declares .borsh [3, 0, 0, 0] 3 ∧
    Declares .bin [0x80, 0x80, 0x80, 0x80, 8] (2 ^ 31) :=
  ⟨⟨⟨[0x82, 0x80], 0, rfl, by decide, by decide⟩, by decide, by decide, by decide⟩, by simp [Declares]; decide,
    ⟨rfl, by decide⟩, ⟨⟨[0x80, 0x80, 0x80, 0x80], 8, rfl, by decide, by decide⟩, by decide, by decide, by decide⟩⟩

example : readByteSlice (decAt .bin none [7] [0x82, 0x80, 0, 65, 66, 67]) =
    (.ok [65, 66], decAt .bin none [7, 0x82, 0x80, 0, 65, 66] [67]) := by decide +kernel

/-- C14: the bytes written: the length in the form of the encoding (`Spec.lenPrefix`), then the bytes. `WriteBytes` without
prefix writes the bytes alone; `WriteLength` the prefix alone. -/
theorem C14_format {e : Encoding} (he : e.valid = true) (b : Bytes) (hb : b.length ≤ maxLen e) (s : Enc) (hs : s.enc = e)
    (hf : NoFail s) : Emits (writeBytes b true) s (lenPrefix e b.length ++ b) ∧
    Emits (writeString b) s (lenPrefix e b.length ++ b) ∧ Emits (writeLength b.length) s (lenPrefix e b.length) ∧
    Emits (writeBytes b false) s b ∧ Declares e (lenPrefix e b.length) b.length := by
  rw [maxLen_eq] at hb
  have hbin : e = .bin → b.length < 2 ^ 64 := by rintro rfl; simp only [lenMaxW] at hb; omega
  have hp := lenPrefix_eq e b.length hbin
  refine ⟨?_, ?_, ?_, (writeBytesRaw_writes e b).emits s hs hf, ?_⟩
  · rw [hp]; exact (writeBytes_writes e he b hb).emits s hs hf
  · rw [hp]; exact (writeBytes_writes e he b hb).emits s hs hf
  · rw [hp]; exact (writeLength_writes e he b.length hb).emits s hs hf
  · cases e with
    | other => cases he
    | bin =>
      rw [hp]
      obtain ⟨h1, h2, h3⟩ := uvarintBytes_groups b.length (hbin rfl)
      exact ⟨h1, h3, h2, hbin rfl⟩
    | borsh => exact (fixed_leValue (k := 4) (by simp only [lenMaxW] at hb; omega)).1 rfl
    | compactU16 => exact ⟨hb, rfl⟩

example : lenPrefix .bin 300 = [0xac, 2] ∧ lenPrefix .compactU16 300 = [0xac, 2] ∧ lenPrefix .borsh 300 = [44, 1, 0, 0] := by
  decide +kernel

end Verif.Props
