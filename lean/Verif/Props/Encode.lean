import Verif.Proofs.Sim
import Verif.Props.Sessions
/-! Properties C21-C26 and C31: what `Encode` writes. -/
set_option linter.unusedSimpArgs false
namespace Verif.Props
open Verif Verif.Spec

/-! ### C21 Written() -/

/-- A call on an encoder: a typed write, a raw `Write`, or `Encode` of any value of any type. -/
inductive ECall where
  | op (op : WOp)
  | write (b : Bytes)
  | encode (t : Ty) (v : Val)

def ECall.run : ECall → EM Unit
  | .op c => c.write
  | .write b => encWrite b
  | .encode t v => Verif.encode t v

/-- The encoder after a sequence of calls, each made whether or not the previous ones succeeded. -/
def encAfter : List ECall → Enc → Enc
  | [], s => s
  | c :: cs, s => encAfter cs (c.run s).2

theorem wop_sim (op : WOp) : Sim op.write := by
  cases op <;> simp only [WOp.write]
  case f32 => exact Sim.writeFloat32 _ _
  case f64 => exact Sim.writeFloat64 _ _
  case uvarint => exact Sim.writeUVarInt _
  case varint => exact Sim.writeVarInt _
  case u128 => exact Sim.writeUint128 _ _ _
  case i128 => exact Sim.writeInt128 _ _ _
  case length => exact Sim.writeLength _
  case bytes => exact Sim.writeBytes _ _
  case str => exact Sim.writeString _
  case rustStr => exact Sim.writeRustString _
  case raw => exact Sim.writeBytes _ _
  all_goals exact Sim.toWriter _

theorem ecall_sim (c : ECall) : Sim c.run := by
  cases c with
  | op op => exact wop_sim op
  | write b => exact Sim.toWriter b
  | encode t v => exact Sim.encode t v

/-- C21: after any sequence of calls on any encoder, `Written()` has grown by exactly the number of bytes handed to the
writer, whatever the calls returned.  (The writer may even fail: the refused chunk is counted too.) -/
theorem C21_written (e : Encoding) (sink : Sink) (calls : List ECall) :
    (encAfter calls (Enc.new e sink)).written = ((encAfter calls (Enc.new e sink)).log.map List.length).sum ∧
    ((∀ h c, sink h c = true) →
      (encAfter calls (Enc.new e sink)).written = (encAfter calls (Enc.new e sink)).out.length) := by
  have key : ∀ (calls : List ECall) (s : Enc), s.written = (s.log.map List.length).sum →
      (encAfter calls s).written = ((encAfter calls s).log.map List.length).sum := by
    intro calls
    induction calls with
    | nil => exact fun s h => h
    | cons c cs ih =>
      intro s hs
      refine ih _ ?_
      have hl : ∀ (s : Enc) (x : List Bytes) (k : Option Order), s.written = (s.log.map List.length).sum →
          (s.left x k).written = ((s.left x k).log.map List.length).sum := by
        intro s x k h
        simp only [Enc.left, Enc.push, Enc.written, List.map_append, List.sum_append, List.length_flatten] at h ⊢
        omega
      obtain ⟨r, x, k, _, hw | ⟨pre, b, post, k', _, _, _, hw⟩⟩ := ecall_sim c s
      · rw [hw.2]; exact hl s x k hs
      · rw [hw]; exact hl s _ _ hs
  have h := key calls (Enc.new e sink) rfl
  exact ⟨h, fun _ => by rw [h, Enc.out, List.length_flatten]⟩

/-- Two calls, seven bytes. -/
example : (encAfter [.op (.u16 513 .be), .encode (.slice (.uint .w16 false)) (.seq (some [.uint 1, .uint 2]))]
    (Enc.new .bin)).written = 7 := by decide +kernel

/-! ### C22 failing writers -/

/-- The writer accepts these chunks one after the other. -/
def Accepted (sink : Sink) (chunks : List Bytes) : Prop :=
  ∀ pre b post, chunks = pre ++ b :: post → sink pre b = true

theorem accepted_iff (sink : Sink) (cs : List Bytes) : Accepts sink [] cs ↔ Accepted sink cs := by
  have key : ∀ (cs log : List Bytes), Accepts sink log cs ↔
      ∀ pre b post, cs = pre ++ b :: post → sink (log ++ pre) b = true := by
    intro cs
    induction cs with
    | nil => intro log; simp [Accepts]
    | cons c cs ih =>
      intro log
      simp only [Accepts, ih]
      constructor
      · rintro ⟨h0, h1⟩ pre b post heq
        cases pre with
        | nil =>
          simp only [List.nil_append, List.cons.injEq] at heq
          simpa [← heq.1] using h0
        | cons x pre =>
          simp only [List.cons_append, List.cons.injEq] at heq
          obtain ⟨rfl, heq⟩ := heq
          simpa using h1 pre b post heq
      · intro h
        refine ⟨by simpa using h [] c cs rfl, fun pre b post heq => ?_⟩
        simpa using h (c :: pre) b post (by simp [heq])
  unfold Accepted
  simpa using key cs []

/-- C22: let `chunks` be what `Encode` hands to a writer that accepts everything.  On a writer that accepts the chunks
`pre` and refuses the next one `b`, `Encode` returns the writer's error and has called `Write` exactly for `pre` and `b`; on
a writer that accepts all of them the outcome and the chunks are the same. -/
theorem C22_failing_writer (e : Encoding) (t : Ty) (v : Val) (sink : Sink) :
    let good := encode t v (Enc.new e)
    let bad := encode t v (Enc.new e sink)
    (∀ pre b post, good.2.log = pre ++ b :: post → Accepted sink pre → sink pre b = false →
      bad.1 = .err .write ∧ bad.2.log = pre ++ [b]) ∧
    (Accepted sink good.2.log → bad.1 = good.1 ∧ bad.2.log = good.2.log) := by
  intro good bad
  obtain ⟨r, cs, c, h1, h2⟩ := Sim.encode t v (Enc.new e sink)
  have hgood : good = (r, (Enc.new e).left cs c) := h1
  have hch : good.2.log = cs := by simp [hgood, Enc.new]
  have hg1 : good.1 = r := by rw [hgood]
  rw [hch, hg1]
  rcases h2 with ⟨ha, hw⟩ | ⟨pre, b, post, c', hcs, ha, hb, hw⟩
  · have hbad : bad = (r, (Enc.new e sink).left cs c) := hw
    have ha' := (accepted_iff sink cs).mp ha
    refine ⟨fun pre b post heq _ hf => ?_, fun _ => ?_⟩
    · rw [ha' pre b post heq] at hf; simp at hf
    · rw [hbad]; exact ⟨rfl, by simp [Enc.new]⟩
  · have hbad : bad = (.err .write, (Enc.new e sink).left (pre ++ [b]) c') := hw
    have ha' := (accepted_iff sink pre).mp ha
    have hb' : sink pre b = false := by simpa [Enc.new] using hb
    refine ⟨fun pre1 b1 post1 heq ha1 hf1 => ?_, fun hall => ?_⟩
    · have hsame : pre ++ b :: post = pre1 ++ b1 :: post1 := hcs ▸ heq
      have : pre1 = pre ∧ b1 = b := by
        rcases List.append_eq_append_iff.mp hsame with ⟨z, h3, h4⟩ | ⟨z, h3, h4⟩
        · cases z with
          | nil => simp only [List.append_nil, List.nil_append, List.cons.injEq] at h3 h4; exact ⟨h3, h4.1.symm⟩
          | cons y z =>
            simp only [List.cons_append, List.cons.injEq] at h4
            have := ha1 pre b z (by rw [h3, h4.1])
            rw [hb'] at this; simp at this
        · cases z with
          | nil => simp only [List.append_nil, List.nil_append, List.cons.injEq] at h3 h4; exact ⟨h3.symm, h4.1⟩
          | cons y z =>
            simp only [List.cons_append, List.cons.injEq] at h4
            have := ha' pre1 b1 z (by rw [h3, h4.1])
            rw [hf1] at this; simp at this
      rw [this.1, this.2, hbad]
      exact ⟨rfl, by simp [Enc.new]⟩
    · have := hall pre b post hcs
      rw [hb'] at this; simp at this

/-- A writer that refuses its second chunk. -/
example : (encode (.slice .str) (.seq (some [.str [65], .str [66]])) (Enc.new .bin fun h _ => h.length != 1)).1 = .err .write := by
  decide +kernel

/-! ### C23 byte counts -/

/-- C23: the byte count is the length of what the marshaller returns, and fails exactly when it fails. -/
theorem C23_byteCount (e : Encoding) (t : Ty) (v : Val) :
    (∀ n, byteCount e t v = .ok n ↔ (marshal e t v).1 = .ok () ∧ n = (marshal e t v).2.length) ∧
    (∀ x, byteCount e t v = .err x ↔ (marshal e t v).1 = .err x) ∧
    (byteCount e t v = .panic ↔ (marshal e t v).1 = .panic) ∧
    (∀ n, mustByteCount e t v = .ok n ↔ byteCount e t v = .ok n) := by
  have hc : ∀ (l : List Bytes) (a : Nat), l.foldl (fun c p => c + p.length) a = a + l.flatten.length := by
    intro l
    induction l with
    | nil => simp
    | cons x l ih => intro a; simp [ih]; omega
  unfold mustByteCount byteCount marshal
  rcases h : encode t v (Enc.new e) with ⟨_ | _ | _, s⟩
  · simp [byteCounter, hc, Enc.out, eq_comm]
  · simp
  · simp

example : byteCount .borsh (.slice .str) (.seq (some [.str [65, 66], .str []])) = .ok 14 := by decide +kernel

/-! ### C24-C26 wire formats -/

theorem marshal_wire {e : Encoding} (he : e.valid = true) (t : Ty) (v : Val) (h : Encodable e t none v) :
    marshal e t v = (.ok (), wire e t .le false v) := by
  obtain ⟨cs, c, hb, hw⟩ := encode_w he t v h (Enc.new e) rfl (fun _ _ => rfl)
  unfold marshal
  rw [hw, ← hb]
  simp [Enc.out, Enc.new]

/-- C24: `MarshalBorsh` of every encodable value succeeds with the bytes of the Borsh format (`Spec.wire .borsh`). -/
theorem C24_borsh_format (t : Ty) (v : Val) (h : Encodable .borsh t none v) :
    marshal .borsh t v = (.ok (), wire .borsh t .le false v) := marshal_wire rfl t v h

/-- C25: likewise `MarshalBin`. -/
theorem C25_bin_format (t : Ty) (v : Val) (h : Encodable .bin t none v) :
    marshal .bin t v = (.ok (), wire .bin t .le false v) := marshal_wire rfl t v h

/-- C26: likewise `MarshalCompactU16`. -/
theorem C26_compact_format (t : Ty) (v : Val) (h : Encodable .compactU16 t none v) :
    marshal .compactU16 t v = (.ok (), wire .compactU16 t .le false v) := marshal_wire rfl t v h

/-- `struct { A uint16 (big); S string; M map[string]int32; P *int8 (optional); N uint8 (sizeof=L); L []bool; Z uint8
(skip); U Uint128 }` -/
def demoTy : Ty := .struct <|
  .cons { name := [65], tag := { order := .be } } (.uint .w16 false) <|
  .cons { name := [83] } .str <|
  .cons { name := [77] } (.map .str (.int .w32 false)) <|
  .cons { name := [80], tag := { option := true } } (.ptr (.int .w8 false)) <|
  .cons { name := [78], tag := { sizeOf := [76] } } (.uint .w8 false) <|
  .cons { name := [76] } (.slice .bool) <|
  .cons { name := [90], tag := { skip := true } } (.uint .w8 false) <|
  .cons { name := [85] } (.lib .uint128) .nil

def demoVal : Val := .struct [.uint 513, .str [104, 105], .map (some [(.str [98], .int (-1)), (.str [97], .int 7)]),
  .ptr (some (.int (-2))), .uint 2, .seq (some [.bool true, .bool false]), .uint 9, .u128 1 2 none]

theorem demo_encodable (e : Encoding) (he : e.valid = true) : Encodable e demoTy none demoVal := by
  cases e <;> simp [Encoding.valid] at he <;>
    simp [demoTy, demoVal, Encodable, EncodableFields, announce, sizeofVal, Ty.kind, Ty.uintKind, lookupSize, LibEnc,
      maxStr, maxLen, Fields.isEnum, Width.bits, Width.bytes, orderedKey, Ty.keyEq, Val.plainEq, toSigned]

/-- Borsh: fields in order, tag `big` ignored, map keys sorted, one-byte option flag, no length prefix for `L`. -/
example : marshal .borsh demoTy demoVal = (.ok (),
    [1, 2, 2, 0, 0, 0, 104, 105, 2, 0, 0, 0, 1, 0, 0, 0, 97, 7, 0, 0, 0, 1, 0, 0, 0, 98, 255, 255, 255, 255, 1, 254, 2,
      1, 0, 1, 0, 0, 0, 0, 0, 0, 0, 2, 0, 0, 0, 0, 0, 0, 0]) := by
  decide +kernel

example : marshal .bin demoTy demoVal = (.ok (),
    [2, 1, 2, 0, 0, 0, 0, 0, 0, 0, 104, 105, 2, 1, 0, 0, 0, 0, 0, 0, 0, 98, 255, 255, 255, 255, 1, 0, 0, 0, 0, 0, 0, 0, 97,
      7, 0, 0, 0, 1, 0, 0, 0, 254, 2, 1, 0, 1, 0, 0, 0, 0, 0, 0, 0, 2, 0, 0, 0, 0, 0, 0, 0]) := by
  decide +kernel

/-! ### C31 maps -/

/-- C31: whatever order the map is iterated in, `Encode` does exactly the same thing (on any writer). -/
theorem C31_map_order (k t : Ty) (hs : orderedKey k = true) (m m' : List (Val × Val)) (hp : m.Perm m')
    (hm : ∀ x ∈ m, Encodable .borsh k none x.1 ∧ k.keyEq x.1 x.1 = true)
    (hd : m.Pairwise fun x y => k.keyEq x.1 y.1 = false) (s : Enc) (h : s.enc = .borsh) :
    encode (.map k t) (.map (some m)) s = encode (.map k t) (.map (some m')) s := by
  have hks : ∀ y ∈ m, KeyShape k.kind y.1 := fun y hy => keyShape_of_enc hs (hm y hy).1 (hm y hy).2
  have e1 : sortEntries k.kind m = sortEntries k.kind m' := by
    refine List.Perm.eq_of_pairwise ?_ (sortEntries_sorted k.kind m hks)
      (sortEntries_sorted k.kind m' fun y hy => hks y (hp.mem_iff.mpr hy))
      ((sortEntries_perm _ _).trans (hp.trans (sortEntries_perm _ _).symm))
    intro a b ha hb h1 h2
    exact entry_of_rank hs hks hd ((sortEntries_perm _ _).mem_iff.mp ha)
      (hp.mem_iff.mpr ((sortEntries_perm _ _).mem_iff.mp hb)) (rankLe_antisymm h1 h2)
  have e2 : ∀ l : List (Val × Val), l.length < 2 → sortEntries k.kind l = l := by
    intro l hl
    match l, hl with
    | [], _ => rfl
    | [x], _ => rfl
  have hl := hp.length_eq
  have : mapEntries .borsh k m = mapEntries .borsh k m' := by
    unfold mapEntries sortedEntries
    rw [if_pos rfl, if_pos rfl]
    by_cases h2 : m.length < 2
    · have e3 := e2 m h2
      have e4 := e2 m' (by omega)
      rw [if_pos h2, if_pos (show m'.length < 2 by omega), ← e3, ← e4, e1]
    · rw [if_neg h2, if_neg (show ¬ m'.length < 2 by omega), e1]
  unfold encode
  simp only [M.bind_apply, M.get_apply, h, setCurE, M.modify_apply, encCore, Option.getD_some, this]

/-- C31: the entries are written by strictly ascending key: numbers by value, strings by bytes. -/
theorem C31_ascending (k t : Ty) (m : List (Val × Val)) (h : Encodable .borsh (.map k t) none (.map (some m))) :
    ∃ m' : List (Val × Val), m'.Perm m ∧
      m'.Pairwise (fun x y => rankLe (keyRank k.kind x.1) (keyRank k.kind y.1) = true ∧ keyRank k.kind x.1 ≠ keyRank k.kind y.1) ∧
      marshal .borsh (.map k t) (.map (some m)) = (.ok (), fixed .le 4 m.length ++
        m'.flatMap fun x => wire .borsh k .le false x.1 ++ wire .borsh t .le false x.2) := by
  have hw := C24_borsh_format _ _ h
  simp only [Encodable, Option.getD_some] at h
  obtain ⟨_, hs, hd, hk⟩ := h
  have hs := hs (by trivial)
  have hks : ∀ y ∈ m, KeyShape k.kind y.1 := fun y hy => keyShape_of_enc hs (hk y hy).2.1 (hk y hy).1
  refine ⟨ascending k m, ascending_perm k m, ?_, ?_⟩
  · have hne : m.Pairwise fun x y => keyRank k.kind x.1 ≠ keyRank k.kind y.1 := by
      refine List.Pairwise.imp_of_mem ?_ hd
      intro a b ha hb hab hr
      rw [keyEq_of_rank hs (hks a ha) (hks b hb) hr] at hab
      simp at hab
    have hne' := ((ascending_perm k m).symm.pairwise_iff (fun h => Ne.symm h)).mp hne
    exact (ascending_sorted k m).and hne'
  · rw [hw]; simp [wire, lenPrefix, entries]

example : Encodable .borsh (.map .f64 .bool) none
    (.map (some [(.float 0x3ff0000000000000, .bool true), (.float 0xbff0000000000000, .bool false)])) := by
  simp [Encodable, maxLen, orderedKey, Ty.kind, Ty.keyEq, Val.plainEq, floatEq, floatKey, isNaN64]

/-- Bin gives no such guarantee: the bytes depend on the iteration order. -/
theorem C31_bin_depends : ∃ m m' : List (Val × Val), m.Perm m' ∧
    marshal .bin (.map (.uint .w8 false) .bool) (.map (some m)) ≠ marshal .bin (.map (.uint .w8 false) .bool) (.map (some m')) := by
  refine ⟨[(.uint 1, .bool true), (.uint 2, .bool false)], [(.uint 2, .bool false), (.uint 1, .bool true)],
    List.Perm.swap _ _ _, ?_⟩
  decide +kernel

end Verif.Props
