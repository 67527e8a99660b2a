import Verif.Model.Decoder
import Verif.Proofs.Bits
/-!
Reading lemmas.  `d.Ok` = the cursor is inside the buffer; `d.rest` = the unread bytes; `d.adv k` = the same decoder
with the cursor moved by `k`.
-/
namespace Verif

/-- cursor inside the buffer -/
def Dec.Ok (d : Dec) : Prop := 0 ≤ d.pos ∧ d.pos ≤ d.data.length

/-- unread bytes -/
def Dec.rest (d : Dec) : Bytes := d.data.drop d.pos.toNat

/-- same decoder, cursor moved by `k` -/
def Dec.adv (d : Dec) (k : Nat) : Dec := { d with pos := d.pos + k }

theorem Dec.rest_length {d : Dec} (h : d.Ok) : (d.rest.length : Int) = d.remaining := by
  obtain ⟨h0, h1⟩ := h
  simp only [Dec.rest, Dec.remaining, List.length_drop]; omega

@[simp] theorem Dec.adv_zero (d : Dec) : d.adv 0 = d := by simp [Dec.adv]
@[simp] theorem Dec.adv_adv (d : Dec) (a b : Nat) : (d.adv a).adv b = d.adv (a + b) := by
  simp [Dec.adv, Int.add_assoc]
@[simp] theorem Dec.adv_enc (d : Dec) (k : Nat) : (d.adv k).enc = d.enc := rfl
@[simp] theorem Dec.adv_cur (d : Dec) (k : Nat) : (d.adv k).cur = d.cur := rfl
@[simp] theorem Dec.adv_data (d : Dec) (k : Nat) : (d.adv k).data = d.data := rfl
@[simp] theorem Dec.adv_pos (d : Dec) (k : Nat) : (d.adv k).pos = d.pos + k := rfl

theorem Dec.adv_rest {d : Dec} (h : d.Ok) (k : Nat) : (d.adv k).rest = d.rest.drop k := by
  obtain ⟨h0, h1⟩ := h
  simp only [Dec.rest, Dec.adv, List.drop_drop]
  congr 1; omega

theorem Dec.adv_ok {d : Dec} (h : d.Ok) {k : Nat} (hk : k ≤ d.rest.length) : (d.adv k).Ok := by
  have := d.rest_length h
  obtain ⟨h0, h1⟩ := h
  simp only [Dec.Ok, Dec.adv, Dec.remaining] at *; omega

theorem Dec.adv_rest_append {d : Dec} (h : d.Ok) {a b : Bytes} (hr : d.rest = a ++ b) :
    (d.adv a.length).rest = b := by
  rw [Dec.adv_rest h, hr]; simp

theorem Dec.adv_ok_append {d : Dec} (h : d.Ok) {a b : Bytes} (hr : d.rest = a ++ b) : (d.adv a.length).Ok :=
  Dec.adv_ok h (by rw [hr]; simp)

theorem Dec.new_ok (b : Bytes) (e : Encoding) : (Dec.new b e).Ok := by simp [Dec.Ok, Dec.new]
@[simp] theorem Dec.new_rest (b : Bytes) (e : Encoding) : (Dec.new b e).rest = b := by simp [Dec.rest, Dec.new]
@[simp] theorem Dec.new_enc (b : Bytes) (e : Encoding) : (Dec.new b e).enc = e := rfl

/-! ### basic moves -/

theorem restM_ok {d : Dec} (h : d.Ok) : restM d = (.ok d.rest, d) := by
  unfold restM; rw [if_pos ⟨h.1, h.2⟩]; rfl

theorem sliceM_ok {d : Dec} (h : d.Ok) {n : Nat} (hn : n ≤ d.rest.length) :
    sliceM n d = (.ok (d.rest.take n), d) := by
  have := d.rest_length h
  obtain ⟨h0, h1⟩ := h
  unfold sliceM
  rw [if_pos ⟨h0, by omega, by simp only [Dec.remaining] at this; omega⟩]; rfl

@[simp] theorem advance_apply (n : Nat) (d : Dec) : advance n d = (.ok (), d.adv n) := rfl

/-- A read of `k` bytes guarded by `Remaining() < k` and done by `order.UintN(dec.data[dec.pos:])`. -/
theorem guarded_uint {k : Nat} {o : Order} {d : Dec} (h : d.Ok) :
    ((do let d ← M.get
         if d.remaining < (k : Int) then M.err .notEnough
         else do
           let b ← restM
           let n ← M.lift (getUint o k b)
           advance k
           pure n : DM Nat) d) =
      if d.rest.length < k then (.err .notEnough, d)
      else match getUint o k d.rest with
        | .ok v => (.ok v, d.adv k)
        | .err e => (.err e, d)
        | .panic => (.panic, d) := by
  have hl := d.rest_length h
  simp only [M.bind_apply, M.get_apply]
  by_cases hk : d.rest.length < k
  · rw [if_pos (by omega), if_pos hk]; rfl
  · rw [if_neg (by omega), if_neg hk]
    simp only [M.bind_apply, restM_ok h, M.lift_apply]
    cases getUint o k d.rest <;> simp

theorem readUint16_eq {d : Dec} (h : d.Ok) (o : Order) : readUint16 o d =
    if d.rest.length < 2 then (.err .notEnough, d)
    else match getUint o 2 d.rest with
      | .ok v => (.ok v, d.adv 2) | .err e => (.err e, d) | .panic => (.panic, d) :=
  guarded_uint (k := 2) h

theorem readUint32_eq {d : Dec} (h : d.Ok) (o : Order) : readUint32 o d =
    if d.rest.length < 4 then (.err .notEnough, d)
    else match getUint o 4 d.rest with
      | .ok v => (.ok v, d.adv 4) | .err e => (.err e, d) | .panic => (.panic, d) :=
  guarded_uint (k := 4) h

theorem readNBytes_eq {d : Dec} (h : d.Ok) (n : Int) : readNBytes n d =
    if n = 0 then (.ok [], d)
    else if n < 0 ∨ n > 0x7FFFFFFF then (.err .invalidLen, d)
    else if (d.rest.length : Int) < n then (.err .notEnough, d)
    else (.ok (d.rest.take n.toNat), d.adv n.toNat) := by
  have hl := d.rest_length h
  unfold readNBytes
  by_cases h0 : n = 0
  · simp [h0]
  by_cases h1 : n < 0 ∨ n > 0x7FFFFFFF
  · simp [h0, h1]
  simp only [h0, h1, if_false, M.bind_apply, M.get_apply]
  simp only [Dec.remaining] at hl
  by_cases h2 : (d.rest.length : Int) < n
  · rw [if_pos (by omega), if_pos h2]; rfl
  · rw [if_neg (by omega), if_neg h2]
    obtain ⟨m, rfl⟩ : ∃ m : Nat, n = m := ⟨n.toNat, by omega⟩
    simp [M.bind_apply, sliceM_ok h (show m ≤ d.rest.length by omega)]

theorem readUint64_eq {d : Dec} (h : d.Ok) (o : Order) : readUint64 o d =
    if d.rest.length < 8 then (.err .notEnough, d)
    else match getUint o 8 d.rest with
      | .ok v => (.ok v, d.adv 8) | .err e => (.err e, d) | .panic => (.panic, d) := by
  have hl := d.rest_length h
  unfold readUint64
  simp only [M.bind_apply, M.get_apply]
  by_cases hk : d.rest.length < 8
  · rw [if_pos (by omega), if_pos hk]; rfl
  · rw [if_neg (by omega), if_neg hk]
    simp only [M.bind_apply, readNBytes_eq h]
    rw [if_neg (by decide), if_neg (by omega), if_neg (by omega)]
    simp only [M.lift_apply]
    have : getUint o 8 (d.rest.take 8) = getUint o 8 d.rest := by
      conv => rhs; rw [← List.take_append_drop 8 d.rest]
      rw [getUint_append]; simp; omega
    rw [show (8 : Int).toNat = 8 from rfl, this]
    obtain ⟨v, hv, -⟩ := getUint_ok o 8 d.rest (by omega)
    simp [hv]

theorem readByte_eq {d : Dec} (h : d.Ok) : readByte d =
    match d.rest with
    | [] => (.err .notEnough, d)
    | b :: _ => (.ok b, d.adv 1) := by
  have hl := d.rest_length h
  unfold readByte
  simp only [M.bind_apply, M.get_apply]
  cases hr : d.rest with
  | nil =>
    rw [hr] at hl; simp at hl
    rw [if_pos (by omega)]; rfl
  | cons b t =>
    rw [hr] at hl; simp at hl
    rw [if_neg (by omega)]
    simp only [M.bind_apply, restM_ok h, hr]
    rfl

theorem readUint128_eq {d : Dec} (h : d.Ok) (o : Order) :
    (d.rest.length < 16 ∧ readUint128 o d = (.err .notEnough, d)) ∨
    ∃ lo hi tail, lo < 2 ^ 64 ∧ hi < 2 ^ 64 ∧ readUint128 o d = (.ok (lo, hi), d.adv 16) ∧
      d.rest = (match o with
        | .le => putUint .le 8 lo ++ putUint .le 8 hi
        | .be => putUint .be 8 hi ++ putUint .be 8 lo) ++ tail := by
  have hl := d.rest_length h
  unfold readUint128
  simp only [M.bind_apply, M.get_apply]
  by_cases hk : d.rest.length < 16
  · left; refine ⟨hk, ?_⟩; rw [if_pos (by omega)]; rfl
  · right
    rw [if_neg (by omega)]
    have hs : sliceM 16 d = (.ok (d.rest.take 16), d) := sliceM_ok (n := 16) h (by omega)
    have hlen : (d.rest.take 16).length = 16 := by simp; omega
    simp only [M.bind_apply, hs]
    obtain ⟨a, ha, ha1, ha2⟩ := getUint_ok o 8 ((d.rest.take 16).take 8) (by simp; omega)
    obtain ⟨b, hb, hb1, hb2⟩ := getUint_ok o 8 ((d.rest.take 16).drop 8) (by simp; omega)
    have hsplit : d.rest = (putUint o 8 a ++ putUint o 8 b) ++ d.rest.drop 16 := by
      rw [ha2, hb2]
      rw [List.take_of_length_le (l := ((d.rest.take 16).take 8)) (by simp; omega),
        List.take_of_length_le (l := ((d.rest.take 16).drop 8)) (by simp; omega),
        List.take_append_drop, List.take_append_drop]
    cases o
    · exact ⟨a, b, d.rest.drop 16, by omega, by omega, by simp only [M.bind_apply, M.lift_apply, ha, hb]; rfl, hsplit⟩
    · exact ⟨b, a, d.rest.drop 16, by omega, by omega, by simp only [M.bind_apply, M.lift_apply, ha, hb]; rfl, hsplit⟩

theorem readFloat32_eq {d : Dec} (h : d.Ok) (o : Order) : readFloat32 o d =
    if d.rest.length < 4 then (.err .notEnough, d)
    else match getUint o 4 d.rest with
      | .ok v => (if d.enc = .borsh ∧ isNaN32 v then .err .nan else .ok v, d.adv 4)
      | .err e => (.err e, d) | .panic => (.panic, d) := by
  have hl := d.rest_length h
  unfold readFloat32
  simp only [M.bind_apply, M.get_apply]
  by_cases hk : d.rest.length < 4
  · rw [if_pos (by omega), if_pos hk]; rfl
  · rw [if_neg (by omega), if_neg hk]
    simp only [M.bind_apply, restM_ok h, M.lift_apply]
    obtain ⟨v, hv, -⟩ := getUint_ok o 4 d.rest (by omega)
    have : advance 4 d = (.ok (), d.adv 4) := rfl
    simp only [hv, this]
    split <;> rfl

theorem readFloat64_eq {d : Dec} (h : d.Ok) (o : Order) : readFloat64 o d =
    if d.rest.length < 8 then (.err .notEnough, d)
    else match getUint o 8 d.rest with
      | .ok v => (if d.enc = .borsh ∧ isNaN64 v then .err .nan else .ok v, d.adv 8)
      | .err e => (.err e, d) | .panic => (.panic, d) := by
  have hl := d.rest_length h
  unfold readFloat64
  simp only [M.bind_apply, M.get_apply]
  by_cases hk : d.rest.length < 8
  · rw [if_pos (by omega), if_pos hk]; rfl
  · rw [if_neg (by omega), if_neg hk]
    simp only [M.bind_apply, restM_ok h, M.lift_apply]
    obtain ⟨v, hv, -⟩ := getUint_ok o 8 d.rest (by omega)
    have : advance 8 d = (.ok (), d.adv 8) := rfl
    simp only [hv, this]
    split <;> rfl

end Verif
