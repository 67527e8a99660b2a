import Verif.Proofs.DecodeSafe
/-!
What a successful read consumed: `Took` for the primitive reads, `Got` for the reflection decoder.
-/
set_option linter.unusedSimpArgs false
namespace Verif
open Spec

/-- If `r` succeeds with `a`, it consumed exactly some bytes `bs` in front of the cursor, and `P bs a`. -/
def Took {α : Type} (e : Encoding) (r : DM α) (P : Bytes → α → Prop) : Prop :=
  ∀ (d : Dec), d.Ok → d.enc = e → ∀ a d', r d = (.ok a, d') →
    ∃ bs tail, d.rest = bs ++ tail ∧ d' = d.adv bs.length ∧ P bs a

/-- The same for code that looks at the current field option, which is `o` at the start. -/
def Got {α : Type} (e : Encoding) (o : Order) (r : DM α) (P : Bytes → α → Prop) : Prop :=
  ∀ (d : Dec), d.Ok → d.enc = e → d.cur = some o → (e = .borsh → o = .le) → ∀ a d', r d = (.ok a, d') →
    ∃ bs tail c, d.rest = bs ++ tail ∧ d' = d.to bs.length (some c) ∧ (e = .borsh → c = .le) ∧ P bs a

section
variable {α β : Type} {e : Encoding} {o : Order}

theorem Took.got {r : DM α} {P} (h : Took e r P) : Got e o r P := by
  intro d ho he hc hb a d' hr
  obtain ⟨bs, tail, h1, h2, h3⟩ := h d ho he a d' hr
  exact ⟨bs, tail, o, h1, by rw [h2, Dec.adv_eq_to, hc], hb, h3⟩

theorem Took.pure {P : Bytes → α → Prop} (a : α) (h : P [] a) : Took e (pure a) P := by
  intro d ho he b d' hr
  simp only [M.pure_apply, Prod.mk.injEq, Res.ok.injEq] at hr
  obtain ⟨rfl, rfl⟩ := hr
  exact ⟨[], d.rest, rfl, by simp, h⟩

theorem Took.err {P : Bytes → α → Prop} (x : Err) : Took e (M.err x) P := by
  intro d ho he b d' hr
  simp at hr

theorem Took.panic {P : Bytes → α → Prop} : Took e M.panic P := by
  intro d ho he b d' hr
  simp at hr

theorem Took.bind {r : DM α} {f : α → DM β} {P : Bytes → α → Prop} {Q : Bytes → β → Prop} (h1 : Took e r P)
    (h2 : ∀ b1 a, P b1 a → Took e (f a) fun b2 b => Q (b1 ++ b2) b) : Took e (r >>= f) Q := by
  intro d ho he b d' hr
  rw [M.bind_apply] at hr
  cases hd : r d with
  | mk res d1 =>
    rw [hd] at hr
    cases res with
    | err x => simp at hr
    | panic => simp at hr
    | ok a =>
      obtain ⟨b1, t1, hr1, rfl, hp⟩ := h1 d ho he a d1 hd
      obtain ⟨b2, t2, hr2, rfl, hq⟩ := h2 b1 a hp _ (Dec.adv_ok_append ho hr1) he b d' hr
      rw [Dec.adv_rest_append ho hr1] at hr2
      exact ⟨b1 ++ b2, t2, by rw [hr1, hr2, List.append_assoc], by simp, hq⟩

theorem Took.map {r : DM α} {f : α → β} {P : Bytes → α → Prop} {Q : Bytes → β → Prop} (h : Took e r P)
    (hq : ∀ bs a, P bs a → Q bs (f a)) : Took e (r >>= fun x => Pure.pure (f x)) Q :=
  h.bind fun b1 a hp => Took.pure _ (by rw [List.append_nil]; exact hq _ _ hp)

theorem Took.ite {c : Prop} [Decidable c] {r s : DM α} {P} (h1 : c → Took e r P) (h2 : ¬ c → Took e s P) :
    Took e (if c then r else s) P := by
  by_cases h : c
  · rw [if_pos h]; exact h1 h
  · rw [if_neg h]; exact h2 h

theorem Took.weaken {r : DM α} {P Q : Bytes → α → Prop} (h : Took e r P) (hq : ∀ bs a, P bs a → Q bs a) : Took e r Q := by
  intro d ho he a d' hr
  obtain ⟨bs, t, h1, h2, h3⟩ := h d ho he a d' hr
  exact ⟨bs, t, h1, h2, hq _ _ h3⟩

theorem Got.pure {P : Bytes → α → Prop} (a : α) (h : P [] a) : Got e o (pure a) P := (Took.pure a h).got

theorem Got.err {P : Bytes → α → Prop} (x : Err) : Got e o (M.err x) P := (Took.err x).got

theorem Got.panic {P : Bytes → α → Prop} : Got e o M.panic P := Took.panic.got

theorem Got.bind {r : DM α} {f : α → DM β} {P : Bytes → α → Prop} {Q : Bytes → β → Prop} (h1 : Got e o r P)
    (h2 : ∀ b1 a o', P b1 a → Got e o' (f a) fun b2 b => Q (b1 ++ b2) b) : Got e o (r >>= f) Q := by
  intro d ho he hc hb b d' hr
  rw [M.bind_apply] at hr
  cases hd : r d with
  | mk res d1 =>
    rw [hd] at hr
    cases res with
    | err x => simp at hr
    | panic => simp at hr
    | ok a =>
      obtain ⟨b1, t1, c1, hr1, rfl, hc1, hp⟩ := h1 d ho he hc hb a d1 hd
      obtain ⟨b2, t2, c2, hr2, rfl, hc2, hq⟩ := h2 b1 a c1 hp _ (Dec.to_ok (Dec.adv_ok_append ho hr1)) he rfl hc1 b d' hr
      rw [Dec.to_rest, Dec.adv_rest_append ho hr1] at hr2
      exact ⟨b1 ++ b2, t2, c2, by rw [hr1, hr2, List.append_assoc], by simp, hc2, hq⟩

theorem Got.map {r : DM α} {f : α → β} {P : Bytes → α → Prop} {Q : Bytes → β → Prop} (h : Got e o r P)
    (hq : ∀ bs a, P bs a → Q bs (f a)) : Got e o (r >>= fun x => Pure.pure (f x)) Q :=
  h.bind fun b1 a _ hp => Got.pure _ (by rw [List.append_nil]; exact hq _ _ hp)

theorem Got.ite {c : Prop} [Decidable c] {r s : DM α} {P} (h1 : c → Got e o r P) (h2 : ¬ c → Got e o s P) :
    Got e o (if c then r else s) P := by
  by_cases h : c
  · rw [if_pos h]; exact h1 h
  · rw [if_neg h]; exact h2 h

theorem Got.weaken {r : DM α} {P Q : Bytes → α → Prop} (h : Got e o r P) (hq : ∀ bs a, P bs a → Q bs a) : Got e o r Q := by
  intro d ho he hc hb a d' hr
  obtain ⟨bs, t, c, h1, h2, h3, h4⟩ := h d ho he hc hb a d' hr
  exact ⟨bs, t, c, h1, h2, h3, hq _ _ h4⟩

theorem Got.set {o' : Order} (ho' : e = .borsh → o = .le) {r : DM α} {P} (h : Got e o r P) :
    Got e o' (setCurD o >>= fun _ => r) P := by
  intro d ho he hc hb a d' hr
  simp only [setCurD, M.bind_apply, M.modify_apply] at hr
  obtain ⟨bs, t, c, h1, h2, h3, h4⟩ := h { d with cur := some o } ho he rfl ho' a d' hr
  exact ⟨bs, t, c, h1, h2, h3, h4⟩

theorem Got.get {f : Dec → DM α} {P}
    (h : ∀ d0 : Dec, d0.Ok → d0.enc = e → d0.cur = some o → Got e o (f d0) P) : Got e o (M.get >>= f) P := by
  intro d ho he hc hb a d' hr
  rw [M.bind_apply, M.get_apply] at hr
  exact h d ho he hc d ho he hc hb a d' hr

theorem Got.repeat {f : DM α} {P : Bytes → α → Prop} {g : α → Bytes} (h : ∀ o, Got e o f fun bs a => bs = g a ∧ P bs a) (n : Nat) :
    ∀ o, Got e o (repeatM f n) fun bs xs => xs.length = n ∧ bs = xs.flatMap g ∧ ∀ x ∈ xs, P (g x) x := by
  induction n with
  | zero => intro o; exact Got.pure _ ⟨rfl, rfl, by simp⟩
  | succ n ih =>
    intro o
    unfold repeatM
    refine (h o).bind fun b1 a o1 h1 => (ih o1).map fun b2 xs h2 => ?_
    obtain ⟨rfl, hp⟩ := h1
    obtain ⟨rfl, rfl, hx⟩ := h2
    refine ⟨rfl, rfl, ?_⟩
    intro x hx'
    rcases List.mem_cons.mp hx' with rfl | hx'
    · exact hp
    · exact hx x hx'

theorem Got.traverse {γ : Type} {f : γ → DM α} {P : Bytes → α → Prop} {g : α → Bytes} (ys : List γ)
    (h : ∀ y ∈ ys, ∀ o, Got e o (f y) fun bs a => bs = g a ∧ P bs a) :
    ∀ o, Got e o (traverseM f ys) fun bs xs => xs.length = ys.length ∧ bs = xs.flatMap g ∧ ∀ x ∈ xs, P (g x) x := by
  induction ys with
  | nil => intro o; exact Got.pure _ ⟨rfl, rfl, by simp⟩
  | cons y ys ih =>
    intro o
    unfold traverseM
    refine (h y (by simp) o).bind fun b1 a o1 h1 => (ih (fun z hz => h z (by simp [hz])) o1).map fun b2 xs h2 => ?_
    obtain ⟨rfl, hp⟩ := h1
    obtain ⟨hl, rfl, hx⟩ := h2
    refine ⟨by simp [hl], rfl, ?_⟩
    intro x hx'
    rcases List.mem_cons.mp hx' with rfl | hx'
    · exact hp
    · exact hx x hx'

/-! ### primitives -/

theorem uint_took {k : Nat} {r : DM Nat}
    (hr : ∀ d : Dec, d.Ok → r d = if d.rest.length < k then (.err .notEnough, d)
      else match getUint o k d.rest with
        | .ok v => (.ok v, d.adv k) | .err e => (.err e, d) | .panic => (.panic, d)) :
    Took e r fun bs n => n < 256 ^ k ∧ bs = fixed o k n := by
  intro d ho he a d' h
  rw [hr d ho] at h
  split at h
  · simp at h
  · rename_i hl
    obtain ⟨v, hv, hlt, hp⟩ := getUint_ok o k d.rest (by omega)
    rw [hv] at h
    simp only [Prod.mk.injEq, Res.ok.injEq] at h
    obtain ⟨rfl, rfl⟩ := h
    exact ⟨d.rest.take k, d.rest.drop k, by simp, by rw [List.length_take, Nat.min_eq_left (by omega)], hlt, by rw [fixed_eq, hp]⟩

theorem readUint16_took (o : Order) : Took e (readUint16 o) fun bs n => n < 2 ^ 16 ∧ bs = fixed o 2 n :=
  uint_took (k := 2) fun _ h => readUint16_eq h o
theorem readUint32_took (o : Order) : Took e (readUint32 o) fun bs n => n < 2 ^ 32 ∧ bs = fixed o 4 n :=
  uint_took (k := 4) fun _ h => readUint32_eq h o
theorem readUint64_took (o : Order) : Took e (readUint64 o) fun bs n => n < 2 ^ 64 ∧ bs = fixed o 8 n :=
  uint_took (k := 8) fun _ h => readUint64_eq h o

theorem readByte_took : Took e readByte fun bs b => bs = [b] := by
  intro d ho he a d' h
  rw [readByte_eq ho] at h
  cases hr : d.rest with
  | nil => rw [hr] at h; simp at h
  | cons b t =>
    rw [hr] at h
    simp only [Prod.mk.injEq, Res.ok.injEq] at h
    obtain ⟨rfl, rfl⟩ := h
    exact ⟨[b], t, rfl, rfl, rfl⟩

theorem readUint8_took : Took e readUint8 fun bs n => n < 256 ∧ bs = fixed .le 1 n :=
  readByte_took.map fun bs b h => ⟨b.toNat_lt, by rw [h, fixed_one]; simp⟩

theorem signed_took {b k : Nat} {r : DM Nat} (hb : 0 < b) (hk : 256 ^ k = 2 ^ b)
    (h : Took e r fun bs n => n < 2 ^ b ∧ bs = fixed o k n) :
    Took e (r >>= fun n => Pure.pure (toSigned b n)) fun bs z => -2 ^ (b - 1) ≤ z ∧ z < 2 ^ (b - 1) ∧ bs = fixed o k (twos b z) :=
  h.map fun bs n hn => by
    obtain ⟨h1, rfl⟩ := hn
    have := toSigned_range hb h1
    exact ⟨this.1, this.2, by rw [twos_eq, toUnsigned_toSigned hb h1]⟩

theorem readInt8_took : Took e readInt8 fun bs z => -2 ^ 7 ≤ z ∧ z < 2 ^ 7 ∧ bs = fixed .le 1 (twos 8 z) :=
  readByte_took.map fun bs b h => by
    have := toSigned_range (b := 8) (n := b.toNat) (by decide) b.toNat_lt
    refine ⟨this.1, this.2, ?_⟩
    rw [twos_eq, toUnsigned_toSigned (by decide) b.toNat_lt, fixed_one, h]; simp
theorem readInt16_took (o : Order) : Took e (readInt16 o) fun bs z => -2 ^ 15 ≤ z ∧ z < 2 ^ 15 ∧ bs = fixed o 2 (twos 16 z) :=
  signed_took (by decide) (by decide) (readUint16_took o)
theorem readInt32_took (o : Order) : Took e (readInt32 o) fun bs z => -2 ^ 31 ≤ z ∧ z < 2 ^ 31 ∧ bs = fixed o 4 (twos 32 z) :=
  signed_took (by decide) (by decide) (readUint32_took o)
theorem readInt64_took (o : Order) : Took e (readInt64 o) fun bs z => -2 ^ 63 ≤ z ∧ z < 2 ^ 63 ∧ bs = fixed o 8 (twos 64 z) :=
  signed_took (by decide) (by decide) (readUint64_took o)

theorem float_took {k : Nat} {r : DM Nat} {nan : Nat → Bool}
    (hr : ∀ d : Dec, d.Ok → r d = if d.rest.length < k then (.err .notEnough, d)
      else match getUint o k d.rest with
        | .ok v => (if d.enc = .borsh ∧ nan v then .err .nan else .ok v, d.adv k)
        | .err e => (.err e, d) | .panic => (.panic, d)) :
    Took e r fun bs n => n < 256 ^ k ∧ bs = fixed o k n ∧ (e = .borsh → nan n = false) := by
  intro d ho he a d' h
  rw [hr d ho] at h
  split at h
  · simp at h
  · rename_i hl
    obtain ⟨v, hv, hlt, hp⟩ := getUint_ok o k d.rest (by omega)
    rw [hv] at h
    by_cases hn : d.enc = .borsh ∧ nan v = true
    · simp only [if_pos hn, Prod.mk.injEq] at h; simp at h
    · simp only [if_neg hn, Prod.mk.injEq, Res.ok.injEq] at h
      obtain ⟨rfl, rfl⟩ := h
      refine ⟨d.rest.take k, d.rest.drop k, by simp, by rw [List.length_take, Nat.min_eq_left (by omega)], hlt, by rw [fixed_eq, hp], fun hb => ?_⟩
      cases hx : nan v with
      | false => rfl
      | true => exact absurd ⟨he.trans hb, hx⟩ hn

theorem readFloat32_took (o : Order) : Took e (readFloat32 o) fun bs n =>
    n < 2 ^ 32 ∧ bs = fixed o 4 n ∧ (e = .borsh → isNaN32 n = false) :=
  float_took (k := 4) (nan := isNaN32) fun _ h => readFloat32_eq h o
theorem readFloat64_took (o : Order) : Took e (readFloat64 o) fun bs n =>
    n < 2 ^ 64 ∧ bs = fixed o 8 n ∧ (e = .borsh → isNaN64 n = false) :=
  float_took (k := 8) (nan := isNaN64) fun _ h => readFloat64_eq h o

theorem readUint128_took (o : Order) : Took e (readUint128 o) fun bs r =>
    r.1 < 2 ^ 64 ∧ r.2 < 2 ^ 64 ∧ bs = fixed o 16 (r.2 * 2 ^ 64 + r.1) := by
  intro d ho he a d' h
  rcases readUint128_eq ho o with ⟨_, hr⟩ | ⟨lo, hi, tail, h1, h2, hr, hrest⟩
  · rw [hr] at h; simp at h
  · rw [hr] at h
    simp only [Prod.mk.injEq, Res.ok.injEq] at h
    obtain ⟨rfl, rfl⟩ := h
    refine ⟨fixed o 16 (hi * 2 ^ 64 + lo), tail, ?_, by simp, h1, h2, rfl⟩
    rw [hrest, fixed128_eq o lo hi h1]
    cases o <;> rfl

theorem readNBytes_took (n : Int) : Took e (readNBytes n) fun bs b => bs = b ∧ (b.length : Int) = n ∧ b.length < 2 ^ 31 := by
  intro d ho he a d' h
  rw [readNBytes_eq ho] at h
  by_cases h0 : n = 0
  · rw [if_pos h0] at h
    simp only [Prod.mk.injEq, Res.ok.injEq] at h
    obtain ⟨rfl, rfl⟩ := h
    exact ⟨[], d.rest, rfl, by simp, rfl, by simp [h0], by simp⟩
  rw [if_neg h0] at h
  by_cases h1 : n < 0 ∨ n > 0x7FFFFFFF
  · rw [if_pos h1] at h; simp at h
  rw [if_neg h1] at h
  by_cases h2 : (d.rest.length : Int) < n
  · rw [if_pos h2] at h; simp at h
  rw [if_neg h2] at h
  simp only [Prod.mk.injEq, Res.ok.injEq] at h
  obtain ⟨rfl, rfl⟩ := h
  have hl : (d.rest.take n.toNat).length = n.toNat := by rw [List.length_take]; omega
  exact ⟨d.rest.take n.toNat, d.rest.drop n.toNat, by simp, by rw [hl], rfl, by rw [hl]; omega, by rw [hl]; omega⟩

theorem sliceBody_took (n : Nat) : Took e (sliceBody n) fun bs b => bs = b ∧ b.length = n := by
  intro d ho he a d' h
  rw [sliceBody_eq ho] at h
  split at h
  · simp at h
  · simp only [Prod.mk.injEq, Res.ok.injEq] at h
    obtain ⟨rfl, rfl⟩ := h
    have hl : (d.rest.take n).length = n := by rw [List.length_take]; omega
    exact ⟨d.rest.take n, d.rest.drop n, by simp, by rw [hl], rfl, hl⟩

theorem readUvarint64_took : Took e readUvarint64 fun bs n => Groups bs ∧ bs.length ≤ 10 ∧ n = leb bs ∧ n < 2 ^ 64 := by
  intro d ho he a d' h
  rw [readUvarint64_eq ho] at h
  rcases goUvarint_cases d.rest with ⟨hle, _⟩ | ⟨bs, tail, hr, hg, h1, h10, hv, hgo⟩
  · rw [if_pos hle] at h; simp at h
  · rw [hgo] at h
    rw [if_neg (by simp only []; omega)] at h
    simp only [Prod.mk.injEq, Res.ok.injEq] at h
    obtain ⟨rfl, rfl⟩ := h
    exact ⟨bs, tail, hr, by simp, hg, h10, rfl, hv⟩

theorem readCompactU16_took : Took e readCompactU16 fun bs n => bs = compact n ∧ n ≤ 65535 := by
  intro d ho he a d' h
  rw [readCompactU16_eq ho] at h
  cases hd : decodeCompactU16 d.rest with
  | err x => rw [hd] at h; simp at h
  | panic => rw [hd] at h; simp at h
  | ok p =>
    obtain ⟨n, k⟩ := p
    rw [hd] at h
    simp only [Prod.mk.injEq, Res.ok.injEq] at h
    obtain ⟨rfl, rfl⟩ := h
    obtain ⟨h1, rfl, t, ht⟩ := (decodeCompactU16_ok_iff _ _ _).1 hd
    exact ⟨compact n, t, ht, rfl, rfl, h1⟩

theorem readCOption_took : Took e readCOption fun bs b => bs = cflag b := by
  refine (readUint32_took .le).bind fun b1 n hn => Took.ite (fun _ => Took.err _) fun hle => Took.pure _ ?_
  obtain ⟨_, rfl⟩ := hn
  rw [List.append_nil]
  have : n = 0 ∨ n = 1 := by omega
  rcases this with rfl | rfl <;> rfl

end
end Verif
