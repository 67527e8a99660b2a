import Verif.Proofs.Bridge
/-! Properties C08-C11: varints. -/
namespace Verif.Props
open Verif Verif.Spec

/-- C08: round trip for 0 ≤ v < 2^56, at most 8 bytes, minimal number of 7-bit groups. -/
theorem C08_uvarint_roundtrip (e : Encoding) (v : Nat) (h : v < 2 ^ 56) :
    ∃ n, n ≤ 8 ∧ RoundTrip e (writeUVarInt v) readUvarint64 n v ∧ (∀ k, n ≤ k + 1 ↔ v < 128 ^ (k + 1)) := by
  obtain ⟨hg, hl, h10⟩ := uvarintBytes_groups v (by omega)
  have h2 : (2 : Nat) ^ 64 < 2 ^ (7 * 10) := by decide
  obtain ⟨init, last, he, -, -, -, -, hlen⟩ := uvarintBytes_spec 10 v (by omega) (by decide)
  have hmin : ∀ k, (uvarintBytes 10 v).length ≤ k + 1 ↔ v < 128 ^ (k + 1) := by
    intro k
    rw [he, show (128 : Nat) = 2 ^ 7 by decide, ← Nat.pow_mul]
    simpa using hlen k
  refine ⟨(uvarintBytes 10 v).length, ?_, ?_, hmin⟩
  · exact (hmin 7).2 (by rw [show (128 : Nat) ^ (7 + 1) = 2 ^ 56 by decide]; exact h)
  · have hr := readUvarint64_reads e _ hg h10 (by omega)
    rw [hl] at hr
    have hw := writeUVarInt_writes e v (by omega) (by omega)
    rw [Int.toNat_natCast] at hw
    exact roundTrip_mk hw hr rfl

/-- C08: every other `int` panics, nothing is written. -/
theorem C08_uvarint_panics (s : Enc) (v : Int) (h0 : -2 ^ 63 ≤ v) (h1 : v < 2 ^ 63) (h : v < 0 ∨ 2 ^ 56 ≤ v) :
    writeUVarInt v s = (.panic, s) := by
  unfold writeUVarInt
  have hv : 2 ^ 56 ≤ toUnsigned 64 v := by
    unfold toUnsigned
    rcases h with h | h
    · rw [← Int.add_emod_right, Int.emod_eq_of_lt (by omega) (by omega)]; omega
    · rw [Int.emod_eq_of_lt (by omega) (by omega)]; omega
  rw [putUvarint8_eq _ (toUnsigned_lt 64 v), if_neg (by omega)]
  rfl

/-- C09: zig-zag round trip for -2^55 ≤ v < 2^55. -/
theorem C09_varint_roundtrip (e : Encoding) (v : Int) (h0 : -2 ^ 55 ≤ v) (h1 : v < 2 ^ 55) :
    ∃ n, n ≤ 8 ∧ RoundTrip e (writeVarInt v) readVarint64 n v := by
  have hz : zigzag v < 2 ^ 56 := by
    by_cases h : 0 ≤ v
    · rw [zigzag_of_nonneg h (by omega)]; omega
    · rw [zigzag_of_neg (by omega) (by omega)]; omega
  obtain ⟨hg, hl, h10⟩ := uvarintBytes_groups (zigzag v) (by omega)
  have h2 : (2 : Nat) ^ 64 < 2 ^ (7 * 10) := by decide
  obtain ⟨init, last, he, -, -, -, -, hlen⟩ := uvarintBytes_spec 10 (zigzag v) (by omega) (by decide)
  refine ⟨(uvarintBytes 10 (zigzag v)).length, ?_, ?_⟩
  · rw [he]; simpa using (hlen 7).2 (by rw [show 7 * (7 + 1) = 56 by decide]; exact hz)
  · have hr := readVarint64_reads e _ hg h10 (by omega)
    rw [hl, unzigzag_zigzag (by omega) (by omega)] at hr
    exact roundTrip_mk (writeVarInt_writes e v hz) hr rfl

/-- C09: every other `int` panics, nothing is written. -/
theorem C09_varint_panics (s : Enc) (v : Int) (h0 : -2 ^ 63 ≤ v) (h1 : v < 2 ^ 63) (h : v < -2 ^ 55 ∨ 2 ^ 55 ≤ v) :
    writeVarInt v s = (.panic, s) := by
  have hz : 2 ^ 56 ≤ zigzag v := by
    rcases h with h | h
    · rw [zigzag_of_neg (by omega) (by omega)]; omega
    · rw [zigzag_of_nonneg (by omega) (by omega)]; omega
  unfold writeVarInt putVarint8
  rw [putUvarint8_eq _ (zigzag_lt v), if_neg (by omega)]
  rfl

example : writeUVarInt (2 ^ 56 - 1) (Enc.new .bin) = (.ok (), { Enc.new .bin with
    count := 8, log := [[0xff, 0xff, 0xff, 0xff, 0xff, 0xff, 0xff, 0x7f]] }) := rfl
example : (writeVarInt (-3) (Enc.new .bin)).2.log = [[5]] := by decide

/-- C10: the varint reader either fails without moving, and then no varint of at most 10 bytes and value below 2^64
stands at the cursor, or it consumes such a varint (1 to 10 bytes, all but the last with the continuation bit) and
returns its base-128 value. -/
theorem C10_uvarint_robust (d : Dec) (hd : Inside d) :
    (∃ bs post, d.data.drop d.pos.toNat = bs ++ post ∧ Groups bs ∧ 1 ≤ bs.length ∧ bs.length ≤ 10 ∧ leb bs < 2 ^ 64 ∧
      readUvarint64 d = (.ok (leb bs), { d with pos := d.pos + bs.length })) ∨
    ((∃ x, readUvarint64 d = (.err x, d)) ∧
      ∀ bs post, d.data.drop d.pos.toNat = bs ++ post → Groups bs → 10 < bs.length ∨ 2 ^ 64 ≤ leb bs) := by
  rw [readUvarint64_eq hd]
  rcases goUvarint_cases d.rest with ⟨h, hall⟩ | ⟨bs, t, hb, hg, h1, h10, hlt, hres⟩
  · right
    exact ⟨⟨_, by rw [if_pos h]⟩, fun bs post hb hg => hall bs post hb hg⟩
  · left
    refine ⟨bs, t, hb, hg, h1, h10, hlt, ?_⟩
    rw [hres, if_neg (by show ¬ ((bs.length : Int) ≤ 0); omega)]
    simp [Dec.adv]

/-- C10 for the signed reader: same bytes, value `unzigzag`ed by its arithmetic definition. -/
theorem C10_varint_robust (d : Dec) (hd : Inside d) :
    (∃ n d', readUvarint64 d = (.ok n, d') ∧
      readVarint64 d = (.ok (if n % 2 = 0 then (n / 2 : Int) else -((n / 2 : Int)) - 1), d')) ∨
    ((∃ x, readUvarint64 d = (.err x, d)) ∧ ∃ x, readVarint64 d = (.err x, d)) := by
  rw [readUvarint64_eq hd, readVarint64_eq hd]
  rcases goUvarint_cases d.rest with ⟨h, hall⟩ | ⟨bs, t, hb, hg, h1, h10, hlt, hres⟩
  · right; rw [if_pos h, if_pos h]; exact ⟨⟨_, rfl⟩, ⟨_, rfl⟩⟩
  · left
    rw [hres, if_neg (by show ¬ ((bs.length : Int) ≤ 0); omega), if_neg (by show ¬ ((bs.length : Int) ≤ 0); omega)]
    refine ⟨_, _, rfl, ?_⟩
    have ht : toSigned 64 (leb bs / 2) = (leb bs : Int) / 2 := by
      unfold toSigned; rw [if_pos (by omega)]; omega
    unfold unzigzag
    rw [ht]
    by_cases hp : leb bs % 2 = 0
    · simp [hp]
    · have h2 : leb bs % 2 = 1 := by omega
      simp [h2]

example : Inside (decAt .bin none [9] [0x80, 0x01, 7]) := by unfold Inside; decide
example : readUvarint64 (decAt .bin none [9] [0x80, 0x01, 7]) = (.ok 128, decAt .bin none [9, 0x80, 0x01] [7]) := by decide

/-- C11 is false of the code: ReadUvarint32 on the wire number 2^32+1 returns 1 without an error
(decoder.go:200), ReadVarint16 on the wire number 40000 returns -25536. -/
theorem C11_violated :
    readUvarint32 (decAt .bin none [] [0x81, 0x80, 0x80, 0x80, 0x10]) =
      (.ok 1, decAt .bin none [0x81, 0x80, 0x80, 0x80, 0x10] []) ∧
    leb [0x81, 0x80, 0x80, 0x80, 0x10] = 2 ^ 32 + 1 ∧
    readVarint64 (decAt .bin none [] [0x80, 0xf1, 0x04]) = (.ok 40000, decAt .bin none [0x80, 0xf1, 0x04] []) ∧
    readVarint16 (decAt .bin none [] [0x80, 0xf1, 0x04]) = (.ok (-25536), decAt .bin none [0x80, 0xf1, 0x04] []) := by
  decide

/-- C11, the part that holds: numbers that fit are returned exactly. Missing: numbers that do not fit are truncated
(modulo 2^16 / 2^32) instead of refused. -/
theorem C11_narrow_partial (d : Dec) :
    (∀ n d', readUvarint64 d = (.ok n, d') →
      (readUvarint32 d = (.ok (n % 2 ^ 32), d') ∧ (n < 2 ^ 32 → readUvarint32 d = (.ok n, d'))) ∧
      (readUvarint16 d = (.ok (n % 2 ^ 16), d') ∧ (n < 2 ^ 16 → readUvarint16 d = (.ok n, d')))) ∧
    (∀ z d', readVarint64 d = (.ok z, d') →
      (-2 ^ 31 ≤ z → z < 2 ^ 31 → readVarint32 d = (.ok z, d')) ∧
      (-2 ^ 15 ≤ z → z < 2 ^ 15 → readVarint16 d = (.ok z, d'))) ∧
    (∀ x d', readUvarint64 d = (.err x, d') → readUvarint32 d = (.err x, d') ∧ readUvarint16 d = (.err x, d')) ∧
    (∀ x d', readVarint64 d = (.err x, d') → readVarint32 d = (.err x, d') ∧ readVarint16 d = (.err x, d')) := by
  refine ⟨fun n d' h => ⟨⟨?_, fun hn => ?_⟩, ⟨?_, fun hn => ?_⟩⟩, fun z d' h => ⟨fun h0 h1 => ?_, fun h0 h1 => ?_⟩,
    fun x d' h => ⟨M.bind_err h, M.bind_err h⟩, fun x d' h => ⟨M.bind_err h, M.bind_err h⟩⟩
  · unfold readUvarint32; rw [M.bind_ok h]; rfl
  · unfold readUvarint32; rw [M.bind_ok h, Nat.mod_eq_of_lt hn]; rfl
  · unfold readUvarint16; rw [M.bind_ok h]; rfl
  · unfold readUvarint16; rw [M.bind_ok h, Nat.mod_eq_of_lt hn]; rfl
  · unfold readVarint32; rw [M.bind_ok h, toSigned_toUnsigned (by decide) (by omega) (by omega)]; rfl
  · unfold readVarint16; rw [M.bind_ok h, toSigned_toUnsigned (by decide) (by omega) (by omega)]; rfl

end Verif.Props
