import Verif.Proofs.FixedSize
import Verif.Props.RoundTrip
import Verif.Props.Lengths
import Verif.Proofs.ValEq
/-! Property C83: types with a fixed layout. -/
namespace Verif.Props
open Spec

theorem decode_sized {e : Encoding} (he : e.valid = true) {nan : Bool} {t : Ty} {k N : Nat} (h : fixedSize e nan t = some k)
    {old : Val} (ho : Shaped N t old) (cur : Option Order) (pre unread : Bytes) :
    (unread.length < k → ∃ er d', decode t old (decAt e cur pre unread) = (.err er, d')) ∧
    (k ≤ unread.length →
      (∃ v c, decode t old (decAt e cur pre unread) = (.ok v, decAt e c (pre ++ unread.take k) (unread.drop k))) ∨
      (nan = true ∧ e = .borsh ∧ ∃ d', decode t old (decAt e cur pre unread) = (.err .nan, d'))) := by
  have hd : decode t old (decAt e cur pre unread) = decCore e t {} old (decAt e (some .le) pre unread) := by
    have : (decAt e cur pre unread).enc ≠ .other := by intro h; rw [show e = .other from h] at he; cases he
    simp only [decode, M.bind_apply, M.get_apply, if_neg this, setCurD, M.modify_apply]
    rfl
  have hs := decCore_sized (N := N) t {} old k h ho (decAt e (some .le) pre unread) (decAt_ok _ _ _ _) rfl (by simp [decAt])
  rw [decAt_rest] at hs
  rw [hd]
  refine ⟨hs.1, fun hl => ?_⟩
  rcases hs.2 hl with ⟨v, c, -, hr⟩ | h
  · refine .inl ⟨v, c, ?_⟩
    rw [hr]
    congr 1
    simp only [Dec.to, Dec.adv, decAt, List.length_append, List.length_take, Nat.min_eq_left hl, List.append_assoc,
      List.take_append_drop, Int.natCast_add]
  · exact .inr h

/-- C83: a type with a fixed layout of `k` bytes is decoded from any `k` bytes, wherever they sit and whatever follows, into
any variable of that type, and nothing else is read. With fewer than `k` bytes there is an error. -/
theorem C83_decode {e : Encoding} (he : e.valid = true) (t : Ty) (k : Nat) (h : fixedSize e false t = some k) (old : Val)
    (N : Nat) (ho : Shaped N t old) (cur : Option Order) (pre unread : Bytes) :
    (unread.length < k → ∃ er, (decode t old (decAt e cur pre unread)).1 = .err er) ∧
    (k ≤ unread.length →
      ∃ v c, decode t old (decAt e cur pre unread) = (.ok v, decAt e c (pre ++ unread.take k) (unread.drop k))) := by
  obtain ⟨h1, h2⟩ := decode_sized he h ho cur pre unread
  refine ⟨fun hl => ?_, fun hl => ?_⟩
  · obtain ⟨er, d', hr⟩ := h1 hl; exact ⟨er, by rw [hr]⟩
  · rcases h2 hl with h | ⟨h, -⟩
    · exact h
    · cases h

/-- C83 with Borsh floats: the only other error is a NaN; whatever is decoded took `k` bytes. -/
theorem C83_floats {e : Encoding} (he : e.valid = true) (t : Ty) (k : Nat) (h : fixedSize e true t = some k) (old : Val)
    (N : Nat) (ho : Shaped N t old) (cur : Option Order) (pre unread : Bytes) :
    (∀ v d', decode t old (decAt e cur pre unread) = (.ok v, d') →
      k ≤ unread.length ∧ ∃ c, d' = decAt e c (pre ++ unread.take k) (unread.drop k)) ∧
    (k ≤ unread.length → (∃ v, (decode t old (decAt e cur pre unread)).1 = .ok v) ∨
      e = .borsh ∧ (decode t old (decAt e cur pre unread)).1 = .err .nan) := by
  obtain ⟨h1, h2⟩ := decode_sized he h ho cur pre unread
  refine ⟨fun v d' hr => ?_, fun hl => ?_⟩
  · by_cases hl : unread.length < k
    · obtain ⟨er, d2, hr2⟩ := h1 hl
      rw [hr] at hr2; cases hr2
    · refine ⟨by omega, ?_⟩
      rcases h2 (by omega) with ⟨v2, c, hr2⟩ | ⟨-, -, d2, hr2⟩
      · rw [hr] at hr2; cases hr2; exact ⟨c, rfl⟩
      · rw [hr] at hr2; cases hr2
  · rcases h2 hl with ⟨v, c, hr⟩ | ⟨-, hb, d', hr⟩
    · exact .inl ⟨v, by rw [hr]⟩
    · exact .inr ⟨hb, by rw [hr]⟩

/-- C83: every supported value of such a type is encoded in `k` bytes. -/
theorem C83_encode {e : Encoding} (he : e.valid = true) (t : Ty) (k : Nat) (h : fixedSize e true t = some k) (v : Val)
    (hv : Supported e t v) : (marshal e t v).1 = .ok () ∧ (marshal e t v).2.length = k ∧ byteCount e t v = .ok k := by
  have hm := marshal_wire he t v hv.1
  obtain ⟨c, hd⟩ := decode_r he t v hv.1 hv.2 (Dec.new (wire e t .le false v) e) [] rfl (Dec.new_ok _ _)
    (by rw [Dec.new_rest, List.append_nil])
  have hlen : (marshal e t v).2.length = k := by
    obtain ⟨hk, c', hd'⟩ := (C83_floats he t k h t.zero 0 (zero_shaped 0 t) none [] (wire e t .le false v)).1 _ _ hd
    have := congrArg Dec.pos hd'
    simp only [Dec.to, Dec.adv, Dec.new, decAt, List.nil_append, List.length_take, Nat.min_eq_left hk] at this
    rw [hm]
    simp only []
    omega
  have hok : (marshal e t v).1 = .ok () := by rw [hm]
  exact ⟨hok, hlen, ((C23_byteCount e t v).1 k).2 ⟨hok, hlen.symm⟩⟩

/-- A struct of 38 bytes: big-endian `uint16`, three `Varuint32` in an array (fixed width there), `*Uint128`, an array of two
structs with a bool and an `int16`, a skipped string. -/
def fixTy : Ty := .struct <|
  .cons { name := [65], tag := { order := .be } } (.uint .w16 false) <|
  .cons { name := [66] } (.array 3 (.lib .varuint32)) <|
  .cons { name := [67] } (.ptr (.lib .uint128)) <|
  .cons { name := [68] } (.array 2 (.struct (.cons { name := [69] } .bool (.cons { name := [70] } (.int .w16 false) .nil)))) <|
  .cons { name := [71], tag := { skip := true } } .str <|
  .cons { name := [72] } (.array 2 (.uint .w8 false)) .nil

example : fixedSize .bin false fixTy = some 38 ∧ fixedSize .borsh false fixTy = some 38 ∧
    fixedSize .borsh false .f64 = none ∧ fixedSize .borsh true .f64 = some 8 ∧ fixedSize .bin true .str = none := by decide
example : (decode fixTy fixTy.zero (decAt .borsh none [9] (List.replicate 40 7))).2.pos = 39 := by decide +kernel
example : Supported .bin (.array 2 (.struct (.cons { name := [69] } .bool (.cons { name := [70] } (.int .w16 false) .nil))))
    (.arr [.struct [.bool true, .int (-2)], .struct [.bool false, .int 77]]) := by
  constructor
  · simp [Encodable, EncodableFields, announce, Ty.kind, Ty.uintKind, lookupSize, Width.bits, Width.bytes, Fields.isEnum]
  · simp [Returns, ReturnsFields, announced, Ty.asLib, Ty.kind, Ty.uintKind, wire, wireFields, fieldWire, Fields.isEnum]

end Verif.Props
