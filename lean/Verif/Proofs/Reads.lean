import Verif.Proofs.Decoder
import Verif.Proofs.Varint
/-!
Three relations used everywhere:
* `Reads e r bs a`: whatever follows, `r` turns the bytes `bs` into `a` and moves exactly past them;
* `Prim r`: `r` never panics and only moves the cursor forward inside the buffer;
* `Stable r`: a success is not changed by other bytes before or after what was consumed.
-/
set_option linter.unusedSimpArgs false
namespace Verif

def Reads {α : Type} (e : Encoding) (r : DM α) (bs : Bytes) (a : α) : Prop :=
  ∀ (d : Dec) (tail : Bytes), d.enc = e → d.Ok → d.rest = bs ++ tail → r d = (.ok a, d.adv bs.length)

def Prim {α : Type} (r : DM α) : Prop :=
  ∀ d : Dec, d.Ok → d.enc.valid = true →
    ∃ (res : Res α) (k : Nat), r d = (res, d.adv k) ∧ res ≠ .panic ∧ k ≤ d.rest.length

/-- `d2` sees the unread bytes of `d1` followed by `ext`. -/
structure Ext (ext : Bytes) (d1 d2 : Dec) : Prop where
  ok1 : d1.Ok
  ok2 : d2.Ok
  rest : d2.rest = d1.rest ++ ext
  enc : d2.enc = d1.enc
  cur : d2.cur = d1.cur

def Stable {α : Type} (r : DM α) : Prop :=
  ∀ ext d1 d2, Ext ext d1 d2 → d1.enc.valid = true → ∀ a d1', r d1 = (.ok a, d1') →
    ∃ d2', r d2 = (.ok a, d2') ∧ Ext ext d1' d2' ∧ d2'.pos - d2.pos = d1'.pos - d1.pos

section combinators
variable {α β : Type} {e : Encoding}

theorem Reads.pure (a : α) : Reads e (pure a) [] a := by
  intro d tail _ _ _; simp

theorem Reads.bind {r : DM α} {f : α → DM β} {b1 b2 : Bytes} {a : α} {b : β}
    (h1 : Reads e r b1 a) (h2 : Reads e (f a) b2 b) : Reads e (r >>= f) (b1 ++ b2) b := by
  intro d tail he ho hr
  have hr1 : d.rest = b1 ++ (b2 ++ tail) := by simpa using hr
  rw [M.bind_ok (h1 d _ he ho hr1)]
  rw [h2 (d.adv b1.length) tail he (Dec.adv_ok_append ho hr1) (Dec.adv_rest_append ho hr1)]
  simp

theorem Reads.bind_pure {r : DM α} {f : α → β} {bs : Bytes} {a : α} (h : Reads e r bs a) :
    Reads e (r >>= fun x => Pure.pure (f x)) bs (f a) := by
  have := h.bind (f := fun x => Pure.pure (f x)) (Reads.pure (f a))
  simpa using this

theorem Prim.pure (a : α) : Prim (pure a : DM α) := fun d _ _ => ⟨.ok a, 0, by simp, by simp, by omega⟩
theorem Prim.err (x : Err) : Prim (M.err x : DM α) := fun d _ _ => ⟨.err x, 0, by simp, by simp, by omega⟩

theorem Prim.bind {r : DM α} {f : α → DM β} (h1 : Prim r) (h2 : ∀ a, Prim (f a)) : Prim (r >>= f) := by
  intro d ho hv
  obtain ⟨res, k, hr, hp, hk⟩ := h1 d ho hv
  cases res with
  | panic => exact absurd rfl hp
  | err x => exact ⟨.err x, k, by rw [M.bind_err hr], by simp, hk⟩
  | ok a =>
    obtain ⟨res2, k2, hr2, hp2, hk2⟩ := h2 a (d.adv k) (Dec.adv_ok ho hk) hv
    rw [Dec.adv_rest ho, List.length_drop] at hk2
    exact ⟨res2, k + k2, by rw [M.bind_ok hr, hr2]; simp, hp2, by omega⟩

theorem Prim.ite {c : Prop} [Decidable c] {r s : DM α} (h1 : Prim r) (h2 : Prim s) : Prim (if c then r else s) := by
  split <;> assumption

theorem Ext.adv {ext : Bytes} {d1 d2 : Dec} (h : Ext ext d1 d2) {k : Nat} (hk : k ≤ d1.rest.length) :
    Ext ext (d1.adv k) (d2.adv k) where
  ok1 := Dec.adv_ok h.ok1 hk
  ok2 := Dec.adv_ok h.ok2 (by rw [h.rest]; simp; omega)
  rest := by rw [Dec.adv_rest h.ok1, Dec.adv_rest h.ok2, h.rest, List.drop_append_of_le_length hk]
  enc := h.enc
  cur := h.cur

theorem Stable.pure (a : α) : Stable (pure a : DM α) := by
  intro ext d1 d2 h _ b d1' hr
  simp at hr; obtain ⟨rfl, rfl⟩ := hr
  exact ⟨d2, by simp, h, by omega⟩
theorem Stable.err (x : Err) : Stable (M.err x : DM α) := by
  intro ext d1 d2 h _ b d1' hr; simp at hr
theorem Stable.panic : Stable (M.panic : DM α) := by
  intro ext d1 d2 h _ b d1' hr; simp at hr

theorem Stable.bind {r : DM α} {f : α → DM β} (hp : ∀ d, d.enc.valid = true → (r d).2.enc = d.enc)
    (h1 : Stable r) (h2 : ∀ a, Stable (f a)) : Stable (r >>= f) := by
  intro ext d1 d2 h hv b d1'' hr
  cases hm : r d1 with
  | mk res d1' =>
    cases res with
    | err x => rw [M.bind_err hm] at hr; simp at hr
    | panic => rw [M.bind_panic hm] at hr; simp at hr
    | ok a =>
      rw [M.bind_ok hm] at hr
      obtain ⟨d2', hr2, he2, hpos⟩ := h1 ext d1 d2 h hv a d1' hm
      have hv' : d1'.enc.valid = true := by
        have := hp d1 hv; rw [hm] at this; simp only [] at this; rw [this]; exact hv
      obtain ⟨d2'', hr3, he3, hpos3⟩ := h2 a ext d1' d2' he2 hv' b d1'' hr
      exact ⟨d2'', by rw [M.bind_ok hr2, hr3], he3, by omega⟩

theorem Stable.ite {c : Prop} [Decidable c] {r s : DM α} (h1 : Stable r) (h2 : Stable s) : Stable (if c then r else s) := by
  split <;> assumption

end combinators

/-! ### the primitive reads -/

section prims

/-- A primitive that consumes a fixed number of bytes `k`, computing `f` on them. -/
theorem uint_reads {k : Nat} {e : Encoding} {r : DM Nat} {o : Order}
    (heq : ∀ d : Dec, d.Ok → r d =
      if d.rest.length < k then (.err .notEnough, d)
      else match getUint o k d.rest with
        | .ok v => (.ok v, d.adv k) | .err e => (.err e, d) | .panic => (.panic, d))
    (v : Nat) (hv : v < 256 ^ k) : Reads e r (putUint o k v) v := by
  intro d tail _ ho hr
  rw [heq d ho, hr]
  rw [if_neg (by simp), getUint_putUint _ _ _ _ hv]; simp

theorem uint_prim {k : Nat} {r : DM Nat} {o : Order}
    (heq : ∀ d : Dec, d.Ok → r d =
      if d.rest.length < k then (.err .notEnough, d)
      else match getUint o k d.rest with
        | .ok v => (.ok v, d.adv k) | .err e => (.err e, d) | .panic => (.panic, d)) : Prim r := by
  intro d ho _
  rw [heq d ho]
  by_cases h : d.rest.length < k
  · exact ⟨.err .notEnough, 0, by simp [h], by simp, by omega⟩
  · obtain ⟨v, hv, -⟩ := getUint_ok o k d.rest (by omega)
    exact ⟨.ok v, k, by simp [h, hv], by simp, by omega⟩

theorem uint_stable {k : Nat} {r : DM Nat} {o : Order}
    (heq : ∀ d : Dec, d.Ok → r d =
      if d.rest.length < k then (.err .notEnough, d)
      else match getUint o k d.rest with
        | .ok v => (.ok v, d.adv k) | .err e => (.err e, d) | .panic => (.panic, d)) : Stable r := by
  intro ext d1 d2 h _ a d1' hr
  rw [heq d1 h.ok1] at hr
  by_cases hl : d1.rest.length < k
  · simp [hl] at hr
  · obtain ⟨v, hv, -⟩ := getUint_ok o k d1.rest (by omega)
    rw [if_neg hl, hv] at hr
    simp at hr
    obtain ⟨rfl, rfl⟩ := hr
    refine ⟨d2.adv k, ?_, h.adv (by omega), by simp only [Dec.adv_pos]; omega⟩
    rw [heq d2 h.ok2, h.rest, if_neg (by simp; omega), getUint_append _ _ _ _ (by omega), hv]

/-- "fails without moving, or succeeds" for a fixed-size read -/
theorem uint_cases {k : Nat} {r : DM Nat} {o : Order}
    (heq : ∀ d : Dec, d.Ok → r d =
      if d.rest.length < k then (.err .notEnough, d)
      else match getUint o k d.rest with
        | .ok v => (.ok v, d.adv k) | .err e => (.err e, d) | .panic => (.panic, d)) {d : Dec} (ho : d.Ok) :
    (d.rest.length < k ∧ r d = (.err .notEnough, d)) ∨
    (k ≤ d.rest.length ∧ ∃ v, v < 256 ^ k ∧ putUint o k v = d.rest.take k ∧ r d = (.ok v, d.adv k)) := by
  rw [heq d ho]
  by_cases h : d.rest.length < k
  · left; exact ⟨h, by simp [h]⟩
  · right
    obtain ⟨v, hv, hlt, hp⟩ := getUint_ok o k d.rest (by omega)
    exact ⟨by omega, v, hlt, hp, by simp [h, hv]⟩

theorem readUint16_reads (e : Encoding) (o : Order) (v : Nat) (h : v < 2 ^ 16) : Reads e (readUint16 o) (putUint o 2 v) v :=
  uint_reads (fun _ h => readUint16_eq h o) v (by omega)
theorem readUint32_reads (e : Encoding) (o : Order) (v : Nat) (h : v < 2 ^ 32) : Reads e (readUint32 o) (putUint o 4 v) v :=
  uint_reads (fun _ h => readUint32_eq h o) v (by omega)
theorem readUint64_reads (e : Encoding) (o : Order) (v : Nat) (h : v < 2 ^ 64) : Reads e (readUint64 o) (putUint o 8 v) v :=
  uint_reads (fun _ h => readUint64_eq h o) v (by omega)
theorem readUint16_prim (o : Order) : Prim (readUint16 o) := uint_prim (fun _ h => readUint16_eq h o)
theorem readUint32_prim (o : Order) : Prim (readUint32 o) := uint_prim (fun _ h => readUint32_eq h o)
theorem readUint64_prim (o : Order) : Prim (readUint64 o) := uint_prim (fun _ h => readUint64_eq h o)
theorem readUint16_stable (o : Order) : Stable (readUint16 o) := uint_stable (fun _ h => readUint16_eq h o)
theorem readUint32_stable (o : Order) : Stable (readUint32 o) := uint_stable (fun _ h => readUint32_eq h o)
theorem readUint64_stable (o : Order) : Stable (readUint64 o) := uint_stable (fun _ h => readUint64_eq h o)

theorem readByte_reads (e : Encoding) (b : UInt8) : Reads e readByte [b] b := by
  intro d tail _ ho hr
  rw [readByte_eq ho, hr]; rfl
theorem readByte_prim : Prim readByte := by
  intro d ho _
  rw [readByte_eq ho]
  cases h : d.rest with
  | nil => exact ⟨.err .notEnough, 0, by simp, by simp, by simp⟩
  | cons b t => exact ⟨.ok b, 1, rfl, by simp, by simp⟩
theorem readByte_stable : Stable readByte := by
  intro ext d1 d2 h _ a d1' hr
  rw [readByte_eq h.ok1] at hr
  cases hd : d1.rest with
  | nil => rw [hd] at hr; simp at hr
  | cons b t =>
    rw [hd] at hr; simp at hr
    obtain ⟨rfl, rfl⟩ := hr
    refine ⟨d2.adv 1, ?_, h.adv (by rw [hd]; simp), by simp only [Dec.adv_pos]; omega⟩
    rw [readByte_eq h.ok2, h.rest, hd]; rfl

/-- A `Prim` read keeps data, encoding and field option (stated for valid states). -/
theorem Prim.keeps {α : Type} {r : DM α} (h : Prim r) {d : Dec} (ho : d.Ok) (hv : d.enc.valid = true) :
    (r d).2.enc = d.enc ∧ (r d).2.data = d.data ∧ (r d).2.cur = d.cur ∧ (r d).2.Ok ∧ d.pos ≤ (r d).2.pos := by
  obtain ⟨res, k, hr, -, hk⟩ := h d ho hv
  rw [hr]
  exact ⟨rfl, rfl, rfl, Dec.adv_ok ho hk, by simp only [Dec.adv_pos]; omega⟩

/-- `Stable.bind` for primitive heads. -/
theorem Stable.pbind {α β : Type} {r : DM α} {f : α → DM β} (hp : Prim r)
    (h1 : Stable r) (h2 : ∀ a, Stable (f a)) : Stable (r >>= f) := by
  intro ext d1 d2 h hv b d1'' hr
  cases hm : r d1 with
  | mk res d1' =>
    cases res with
    | err x => rw [M.bind_err hm] at hr; simp at hr
    | panic => rw [M.bind_panic hm] at hr; simp at hr
    | ok a =>
      rw [M.bind_ok hm] at hr
      obtain ⟨d2', hr2, he2, hpos⟩ := h1 ext d1 d2 h hv a d1' hm
      have hv' : d1'.enc.valid = true := by
        have := (hp.keeps h.ok1 hv).1; rw [hm] at this; simp only [] at this; rw [this]; exact hv
      obtain ⟨d2'', hr3, he3, hpos3⟩ := h2 a ext d1' d2' he2 hv' b d1'' hr
      exact ⟨d2'', by rw [M.bind_ok hr2, hr3], he3, by omega⟩

theorem readUint8_reads (e : Encoding) (v : Nat) (h : v < 256) : Reads e readUint8 [UInt8.ofNat v] v := by
  have := (readByte_reads e (UInt8.ofNat v)).bind_pure (f := fun b => b.toNat)
  rw [UInt8.toNat_ofNat', Nat.mod_eq_of_lt (by omega)] at this
  exact this
theorem readUint8_prim : Prim readUint8 := readByte_prim.bind fun _ => Prim.pure _
theorem readUint8_stable : Stable readUint8 := Stable.pbind readByte_prim readByte_stable fun _ => Stable.pure _
theorem readInt8_reads (e : Encoding) (z : Int) (h0 : -128 ≤ z) (h1 : z < 128) :
    Reads e readInt8 [UInt8.ofNat (toUnsigned 8 z)] z := by
  have := (readByte_reads e (UInt8.ofNat (toUnsigned 8 z))).bind_pure (f := fun b => toSigned 8 b.toNat)
  rw [UInt8.toNat_ofNat', Nat.mod_eq_of_lt (by exact toUnsigned_lt 8 z), toSigned_toUnsigned (by decide) (by omega) (by omega)] at this
  exact this
theorem readInt8_prim : Prim readInt8 := readByte_prim.bind fun _ => Prim.pure _
theorem readInt8_stable : Stable readInt8 := Stable.pbind readByte_prim readByte_stable fun _ => Stable.pure _

theorem readInt16_reads (e : Encoding) (o : Order) (z : Int) (h0 : -2 ^ 15 ≤ z) (h1 : z < 2 ^ 15) :
    Reads e (readInt16 o) (putUint o 2 (toUnsigned 16 z)) z := by
  have := (readUint16_reads e o _ (toUnsigned_lt 16 z)).bind_pure (f := toSigned 16)
  rwa [toSigned_toUnsigned (by decide) (by omega) (by omega)] at this
theorem readInt32_reads (e : Encoding) (o : Order) (z : Int) (h0 : -2 ^ 31 ≤ z) (h1 : z < 2 ^ 31) :
    Reads e (readInt32 o) (putUint o 4 (toUnsigned 32 z)) z := by
  have := (readUint32_reads e o _ (toUnsigned_lt 32 z)).bind_pure (f := toSigned 32)
  rwa [toSigned_toUnsigned (by decide) (by omega) (by omega)] at this
theorem readInt64_reads (e : Encoding) (o : Order) (z : Int) (h0 : -2 ^ 63 ≤ z) (h1 : z < 2 ^ 63) :
    Reads e (readInt64 o) (putUint o 8 (toUnsigned 64 z)) z := by
  have := (readUint64_reads e o _ (toUnsigned_lt 64 z)).bind_pure (f := toSigned 64)
  rwa [toSigned_toUnsigned (by decide) (by omega) (by omega)] at this
theorem readInt16_prim (o : Order) : Prim (readInt16 o) := (readUint16_prim o).bind fun _ => Prim.pure _
theorem readInt32_prim (o : Order) : Prim (readInt32 o) := (readUint32_prim o).bind fun _ => Prim.pure _
theorem readInt64_prim (o : Order) : Prim (readInt64 o) := (readUint64_prim o).bind fun _ => Prim.pure _
theorem readInt16_stable (o : Order) : Stable (readInt16 o) :=
  Stable.pbind (readUint16_prim o) (readUint16_stable o) fun _ => Stable.pure _
theorem readInt32_stable (o : Order) : Stable (readInt32 o) :=
  Stable.pbind (readUint32_prim o) (readUint32_stable o) fun _ => Stable.pure _
theorem readInt64_stable (o : Order) : Stable (readInt64 o) :=
  Stable.pbind (readUint64_prim o) (readUint64_stable o) fun _ => Stable.pure _

/-- bytes of a 128-bit value -/
def put128 (o : Order) (lo hi : Nat) : Bytes :=
  match o with
  | .le => putUint .le 8 lo ++ putUint .le 8 hi
  | .be => putUint .be 8 hi ++ putUint .be 8 lo

@[simp] theorem put128_length (o : Order) (lo hi : Nat) : (put128 o lo hi).length = 16 := by cases o <;> simp [put128]

theorem putUint_inj {o : Order} {k a b : Nat} (ha : a < 256 ^ k) (hb : b < 256 ^ k) (h : putUint o k a = putUint o k b) :
    a = b := by
  have h1 := getUint_putUint o k a [] ha
  have h2 := getUint_putUint o k b [] hb
  rw [h] at h1
  rw [h1] at h2; simpa using h2

theorem put128_inj {o : Order} {lo hi lo' hi' : Nat} (h1 : lo < 2 ^ 64) (h2 : hi < 2 ^ 64) (h3 : lo' < 2 ^ 64)
    (h4 : hi' < 2 ^ 64) (h : put128 o lo hi = put128 o lo' hi') : lo = lo' ∧ hi = hi' := by
  cases o <;> simp only [put128] at h <;> obtain ⟨ha, hb⟩ := List.append_inj h (by simp)
  · exact ⟨putUint_inj (by omega) (by omega) ha, putUint_inj (by omega) (by omega) hb⟩
  · exact ⟨putUint_inj (by omega) (by omega) hb, putUint_inj (by omega) (by omega) ha⟩

theorem readUint128_cases {d : Dec} (h : d.Ok) (o : Order) :
    (d.rest.length < 16 ∧ readUint128 o d = (.err .notEnough, d)) ∨
    ∃ lo hi tail, lo < 2 ^ 64 ∧ hi < 2 ^ 64 ∧ readUint128 o d = (.ok (lo, hi), d.adv 16) ∧
      d.rest = put128 o lo hi ++ tail := by
  rcases readUint128_eq h o with h | ⟨lo, hi, t, h1, h2, h3, h4⟩
  · exact .inl h
  · exact .inr ⟨lo, hi, t, h1, h2, h3, by cases o <;> exact h4⟩

theorem readUint128_reads (e : Encoding) (o : Order) (lo hi : Nat) (h1 : lo < 2 ^ 64) (h2 : hi < 2 ^ 64) :
    Reads e (readUint128 o) (put128 o lo hi) (lo, hi) := by
  intro d tail _ ho hr
  rcases readUint128_cases ho o with ⟨hs, -⟩ | ⟨lo', hi', t', h1', h2', hres, hr'⟩
  · rw [hr] at hs; simp at hs; omega
  · rw [hr] at hr'
    obtain ⟨ha, -⟩ := List.append_inj hr' (by simp)
    obtain ⟨rfl, rfl⟩ := put128_inj h1 h2 h1' h2' ha
    rw [hres]; simp

theorem readUint128_prim (o : Order) : Prim (readUint128 o) := by
  intro d ho _
  rcases readUint128_cases ho o with ⟨hs, h⟩ | ⟨lo', hi', t', h1', h2', hres, hr'⟩
  · exact ⟨_, 0, by rw [h, Dec.adv_zero], by simp, by omega⟩
  · exact ⟨_, 16, hres, by simp, by rw [hr']; simp⟩

theorem readUint128_stable (o : Order) : Stable (readUint128 o) := by
  intro ext d1 d2 h _ a d1' hr
  rcases readUint128_cases h.ok1 o with ⟨hs, h'⟩ | ⟨lo, hi, t, h1, h2, hres, hr'⟩
  · rw [h'] at hr; simp at hr
  · rw [hres] at hr; simp at hr
    obtain ⟨rfl, rfl⟩ := hr
    refine ⟨d2.adv 16, ?_, h.adv (by rw [hr']; simp), by simp only [Dec.adv_pos]; omega⟩
    have := readUint128_reads d2.enc o lo hi h1 h2 d2 (t ++ ext) rfl h.ok2 (by rw [h.rest, hr']; simp)
    simpa using this

theorem readNBytes_reads (e : Encoding) (bs : Bytes) (h : bs.length ≤ 0x7FFFFFFF) :
    Reads e (readNBytes (bs.length : Int)) bs bs := by
  intro d tail _ ho hr
  rw [readNBytes_eq ho, hr]
  by_cases h0 : bs.length = 0
  · have : bs = [] := List.length_eq_zero_iff.mp h0
    subst this; simp
  · rw [if_neg (by omega), if_neg (by omega), if_neg (by simp; omega)]; simp

theorem readNBytes_prim (n : Int) : Prim (readNBytes n) := by
  intro d ho _
  rw [readNBytes_eq ho]
  by_cases h0 : n = 0
  · exact ⟨.ok [], 0, by simp [h0], by simp, by omega⟩
  by_cases h1 : n < 0 ∨ n > 0x7FFFFFFF
  · exact ⟨.err .invalidLen, 0, by simp [h0, h1], by simp, by omega⟩
  by_cases h2 : (d.rest.length : Int) < n
  · exact ⟨.err .notEnough, 0, by rw [if_neg h0, if_neg h1, if_pos h2, Dec.adv_zero], by simp, by omega⟩
  · exact ⟨.ok _, n.toNat, by rw [if_neg h0, if_neg h1, if_neg h2], by simp, by omega⟩

theorem readNBytes_stable (n : Int) : Stable (readNBytes n) := by
  intro ext d1 d2 h _ a d1' hr
  rw [readNBytes_eq h.ok1] at hr
  by_cases h0 : n = 0
  · simp [h0] at hr
    obtain ⟨rfl, rfl⟩ := hr
    exact ⟨d2, by rw [readNBytes_eq h.ok2, if_pos h0], h, by omega⟩
  by_cases h1 : n < 0 ∨ n > 0x7FFFFFFF
  · simp [h0, h1] at hr
  by_cases h2 : (d1.rest.length : Int) < n
  · simp [h0, h1, h2] at hr
  · rw [if_neg h0, if_neg h1, if_neg h2] at hr
    simp at hr
    obtain ⟨rfl, rfl⟩ := hr
    refine ⟨d2.adv n.toNat, ?_, h.adv (by omega), by simp only [Dec.adv_pos]; omega⟩
    rw [readNBytes_eq h.ok2, h.rest, if_neg h0, if_neg h1, if_neg (by simp; omega),
      List.take_append_of_le_length (by omega)]

theorem readFloat32_reads (e : Encoding) (o : Order) (v : Nat) (h : v < 2 ^ 32) (hn : ¬ (e = .borsh ∧ isNaN32 v)) :
    Reads e (readFloat32 o) (putUint o 4 v) v := by
  intro d tail he ho hr
  rw [readFloat32_eq ho, hr, if_neg (by simp), getUint_putUint _ _ _ _ (by omega)]
  simp only [he, hn, if_false]; simp
theorem readFloat64_reads (e : Encoding) (o : Order) (v : Nat) (h : v < 2 ^ 64) (hn : ¬ (e = .borsh ∧ isNaN64 v)) :
    Reads e (readFloat64 o) (putUint o 8 v) v := by
  intro d tail he ho hr
  rw [readFloat64_eq ho, hr, if_neg (by simp), getUint_putUint _ _ _ _ (by omega)]
  simp only [he, hn, if_false]; simp
theorem readFloat32_prim (o : Order) : Prim (readFloat32 o) := by
  intro d ho _
  rw [readFloat32_eq ho]
  by_cases h : d.rest.length < 4
  · exact ⟨.err .notEnough, 0, by simp [h], by simp, by omega⟩
  · obtain ⟨v, hv, -⟩ := getUint_ok o 4 d.rest (by omega)
    exact ⟨if d.enc = .borsh ∧ isNaN32 v then .err .nan else .ok v, 4, by simp only [h, hv, if_false], by split <;> simp, by omega⟩
theorem readFloat64_prim (o : Order) : Prim (readFloat64 o) := by
  intro d ho _
  rw [readFloat64_eq ho]
  by_cases h : d.rest.length < 8
  · exact ⟨.err .notEnough, 0, by simp [h], by simp, by omega⟩
  · obtain ⟨v, hv, -⟩ := getUint_ok o 8 d.rest (by omega)
    exact ⟨if d.enc = .borsh ∧ isNaN64 v then .err .nan else .ok v, 8, by simp only [h, hv, if_false], by split <;> simp, by omega⟩
theorem readFloat32_stable (o : Order) : Stable (readFloat32 o) := by
  intro ext d1 d2 h _ a d1' hr
  rw [readFloat32_eq h.ok1] at hr
  by_cases hl : d1.rest.length < 4
  · simp [hl] at hr
  · obtain ⟨v, hv, -⟩ := getUint_ok o 4 d1.rest (by omega)
    rw [if_neg hl, hv] at hr
    simp only [Prod.mk.injEq] at hr
    obtain ⟨hr, rfl⟩ := hr
    refine ⟨d2.adv 4, ?_, h.adv (by omega), by simp only [Dec.adv_pos]; omega⟩
    rw [readFloat32_eq h.ok2, h.rest, if_neg (by simp; omega), getUint_append _ _ _ _ (by omega), hv, h.enc]
    simp only [hr]
theorem readFloat64_stable (o : Order) : Stable (readFloat64 o) := by
  intro ext d1 d2 h _ a d1' hr
  rw [readFloat64_eq h.ok1] at hr
  by_cases hl : d1.rest.length < 8
  · simp [hl] at hr
  · obtain ⟨v, hv, -⟩ := getUint_ok o 8 d1.rest (by omega)
    rw [if_neg hl, hv] at hr
    simp only [Prod.mk.injEq] at hr
    obtain ⟨hr, rfl⟩ := hr
    refine ⟨d2.adv 8, ?_, h.adv (by omega), by simp only [Dec.adv_pos]; omega⟩
    rw [readFloat64_eq h.ok2, h.rest, if_neg (by simp; omega), getUint_append _ _ _ _ (by omega), hv, h.enc]
    simp only [hr]

/-! varints -/

theorem readUvarint64_eq {d : Dec} (ho : d.Ok) : readUvarint64 d =
    if (goUvarint d.rest).2 ≤ 0 then (.err .varint, d)
    else (.ok (goUvarint d.rest).1, d.adv (goUvarint d.rest).2.toNat) := by
  unfold readUvarint64
  simp only [M.bind_apply, restM_ok ho]
  by_cases h : (goUvarint d.rest).2 ≤ 0
  · rw [if_pos h, if_pos h]; rfl
  · rw [if_neg h, if_neg h]
    have : ((goUvarint d.rest).2.toNat : Int) = (goUvarint d.rest).2 := by omega
    simp only [M.bind_apply]
    rw [← this, advance_apply]; rfl

theorem readVarint64_eq {d : Dec} (ho : d.Ok) : readVarint64 d =
    if (goUvarint d.rest).2 ≤ 0 then (.err .varint, d)
    else (.ok (unzigzag (goUvarint d.rest).1), d.adv (goUvarint d.rest).2.toNat) := by
  unfold readVarint64
  have hg : goVarint d.rest = (unzigzag (goUvarint d.rest).1, (goUvarint d.rest).2) := rfl
  simp only [M.bind_apply, restM_ok ho]
  rw [hg]
  by_cases h : (goUvarint d.rest).2 ≤ 0
  · rw [if_pos h, if_pos h]; rfl
  · rw [if_neg h, if_neg h]
    have : ((goUvarint d.rest).2.toNat : Int) = (goUvarint d.rest).2 := by omega
    simp only [M.bind_apply]
    rw [← this, advance_apply]; rfl

/-- Outcome of `binary.Uvarint`. -/
theorem goUvarint_cases (b : Bytes) :
    ((goUvarint b).2 ≤ 0 ∧ ∀ bs tail, b = bs ++ tail → Spec.Groups bs → 10 < bs.length ∨ 2 ^ 64 ≤ Spec.leb bs) ∨
    ∃ bs tail, b = bs ++ tail ∧ Spec.Groups bs ∧ 1 ≤ bs.length ∧ bs.length ≤ 10 ∧ Spec.leb bs < 2 ^ 64 ∧
      goUvarint b = (Spec.leb bs, (bs.length : Int)) := by
  rcases uvarintLoop_spec b 0 0 (by simp) (by omega) with ⟨h, hall⟩ | ⟨init, last, tail, he, hin, hl, hc, hv, hres⟩
  · left
    refine ⟨h, ?_⟩
    rintro bs tail hb ⟨init, last, rfl, hin, hl⟩
    rcases hall init last tail (by simp [hb]) hin hl with h' | h'
    · left; simp; omega
    · right; simpa using h'
  · right
    refine ⟨init ++ [last], tail, by simp [he], ⟨init, last, rfl, hin, hl⟩, by simp, by simp; omega, by simpa using hv, ?_⟩
    unfold goUvarint; rw [hres]; simp

/-- the groups at the head of a byte string are unique -/
theorem groups_unique : ∀ (a b : Bytes) {s t : Bytes}, a ++ s = b ++ t → Spec.Groups a → Spec.Groups b → a = b := by
  intro a
  induction a with
  | nil => rintro b s t _ ⟨i, l, h, -⟩ _; simp at h
  | cons x a ih =>
    rintro b s t h ⟨i, l, h1, hi, hl⟩ ⟨j, m, rfl, hj, hm⟩
    cases j with
    | nil =>
      simp at h
      obtain ⟨rfl, h⟩ := h
      cases i with
      | nil => simp at h1; simp [h1.2]
      | cons y i => simp at h1; have := hi y (by simp); rw [← h1.1] at this; omega
    | cons z j =>
      simp at h
      obtain ⟨rfl, h⟩ := h
      cases i with
      | nil => simp at h1; have := hj x (by simp); rw [h1.1] at this; omega
      | cons y i =>
        simp at h1
        obtain ⟨rfl, h1⟩ := h1
        have := ih (j ++ [m]) (s := s) (t := t) (by simpa using h)
          ⟨i, l, by simpa using h1, fun b hb => hi b (by simp [hb]), hl⟩ ⟨j, m, rfl, fun b hb => hj b (by simp [hb]), hm⟩
        simp [this]

theorem goUvarint_groups {bs tail : Bytes} (hg : Spec.Groups bs) (h1 : bs.length ≤ 10) (h2 : Spec.leb bs < 2 ^ 64) :
    goUvarint (bs ++ tail) = (Spec.leb bs, (bs.length : Int)) := by
  rcases goUvarint_cases (bs ++ tail) with ⟨-, hall⟩ | ⟨bs', t', hb, hg', -, -, -, hres⟩
  · rcases hall bs tail rfl hg with h | h <;> omega
  · have := groups_unique bs bs' hb hg hg'
    subst this; exact hres

theorem uvarintBytes_groups (v : Nat) (h : v < 2 ^ 64) :
    Spec.Groups (uvarintBytes 10 v) ∧ Spec.leb (uvarintBytes 10 v) = v ∧ (uvarintBytes 10 v).length ≤ 10 := by
  have h2 : (2 : Nat) ^ 64 < 2 ^ (7 * 10) := by decide
  obtain ⟨init, last, he, hin, hl, hleb, -, hlen⟩ := uvarintBytes_spec 10 v (by omega) (by decide)
  have hlen10 := (hlen 9).2 (by omega)
  rw [he]
  exact ⟨⟨init, last, rfl, hin, hl⟩, hleb, by simp; omega⟩

theorem readUvarint64_reads (e : Encoding) (bs : Bytes) (hg : Spec.Groups bs) (h1 : bs.length ≤ 10)
    (h2 : Spec.leb bs < 2 ^ 64) : Reads e readUvarint64 bs (Spec.leb bs) := by
  intro d tail _ ho hr
  rw [readUvarint64_eq ho, hr, goUvarint_groups hg h1 h2]
  obtain ⟨i, l, rfl, -⟩ := hg
  rw [if_neg (by simp)]; simp

theorem readVarint64_reads (e : Encoding) (bs : Bytes) (hg : Spec.Groups bs) (h1 : bs.length ≤ 10)
    (h2 : Spec.leb bs < 2 ^ 64) : Reads e readVarint64 bs (unzigzag (Spec.leb bs)) := by
  intro d tail _ ho hr
  rw [readVarint64_eq ho, hr, goUvarint_groups hg h1 h2]
  obtain ⟨i, l, rfl, -⟩ := hg
  rw [if_neg (by simp)]; simp

theorem readUvarint64_prim : Prim readUvarint64 := by
  intro d ho _
  rw [readUvarint64_eq ho]
  rcases goUvarint_cases d.rest with ⟨h, -⟩ | ⟨bs, t, hb, -, h1, -, -, hres⟩
  · exact ⟨.err .varint, 0, by rw [if_pos h, Dec.adv_zero], by simp, by omega⟩
  · exact ⟨_, bs.length, by rw [hres, if_neg (by show ¬ ((bs.length : Int) ≤ 0); omega)]; simp; rfl, by simp, by rw [hb]; simp⟩

theorem readVarint64_prim : Prim readVarint64 := by
  intro d ho _
  rw [readVarint64_eq ho]
  rcases goUvarint_cases d.rest with ⟨h, -⟩ | ⟨bs, t, hb, -, h1, -, -, hres⟩
  · exact ⟨.err .varint, 0, by rw [if_pos h, Dec.adv_zero], by simp, by omega⟩
  · exact ⟨_, bs.length, by rw [hres, if_neg (by show ¬ ((bs.length : Int) ≤ 0); omega)]; simp; rfl, by simp, by rw [hb]; simp⟩

theorem readUvarint64_stable : Stable readUvarint64 := by
  intro ext d1 d2 h _ a d1' hr
  rw [readUvarint64_eq h.ok1] at hr
  rcases goUvarint_cases d1.rest with ⟨h', -⟩ | ⟨bs, t, hb, hg, h1, h10, hlt, hres⟩
  · rw [if_pos h'] at hr; simp at hr
  · rw [hres, if_neg (by show ¬ ((bs.length : Int) ≤ 0); omega)] at hr
    simp at hr
    obtain ⟨rfl, rfl⟩ := hr
    refine ⟨d2.adv bs.length, ?_, h.adv (by rw [hb]; simp), by simp only [Dec.adv_pos]; omega⟩
    exact readUvarint64_reads d2.enc bs hg h10 hlt d2 (t ++ ext) rfl h.ok2 (by rw [h.rest, hb]; simp)

theorem readVarint64_stable : Stable readVarint64 := by
  intro ext d1 d2 h _ a d1' hr
  rw [readVarint64_eq h.ok1] at hr
  rcases goUvarint_cases d1.rest with ⟨h', -⟩ | ⟨bs, t, hb, hg, h1, h10, hlt, hres⟩
  · rw [if_pos h'] at hr; simp at hr
  · rw [hres, if_neg (by show ¬ ((bs.length : Int) ≤ 0); omega)] at hr
    simp at hr
    obtain ⟨rfl, rfl⟩ := hr
    refine ⟨d2.adv bs.length, ?_, h.adv (by rw [hb]; simp), by simp only [Dec.adv_pos]; omega⟩
    exact readVarint64_reads d2.enc bs hg h10 hlt d2 (t ++ ext) rfl h.ok2 (by rw [h.rest, hb]; simp)

theorem readUvarint32_prim : Prim readUvarint32 := readUvarint64_prim.bind fun _ => Prim.pure _
theorem readUvarint16_prim : Prim readUvarint16 := readUvarint64_prim.bind fun _ => Prim.pure _
theorem readVarint32_prim : Prim readVarint32 := readVarint64_prim.bind fun _ => Prim.pure _
theorem readVarint16_prim : Prim readVarint16 := readVarint64_prim.bind fun _ => Prim.pure _
theorem readUvarint32_stable : Stable readUvarint32 := Stable.pbind readUvarint64_prim readUvarint64_stable fun _ => Stable.pure _
theorem readUvarint16_stable : Stable readUvarint16 := Stable.pbind readUvarint64_prim readUvarint64_stable fun _ => Stable.pure _
theorem readVarint32_stable : Stable readVarint32 := Stable.pbind readVarint64_prim readVarint64_stable fun _ => Stable.pure _
theorem readVarint16_stable : Stable readVarint16 := Stable.pbind readVarint64_prim readVarint64_stable fun _ => Stable.pure _

/-! compact-u16 -/

theorem readCompactU16_eq {d : Dec} (ho : d.Ok) : readCompactU16 d =
    match decodeCompactU16 d.rest with
    | .ok (n, k) => (.ok n, d.adv k)
    | .err e => (.err e, d)
    | .panic => (.panic, d) := by
  unfold readCompactU16
  simp only [M.bind_apply, restM_ok ho]
  cases decodeCompactU16 d.rest with
  | ok p => rfl
  | err e => rfl
  | panic => rfl

theorem readCompactU16_reads (e : Encoding) (n : Nat) (h : n ≤ 65535) : Reads e readCompactU16 (Spec.compact n) n := by
  intro d tail _ ho hr
  have : decodeCompactU16 d.rest = .ok (n, (Spec.compact n).length) :=
    (decodeCompactU16_ok_iff _ _ _).2 ⟨h, rfl, tail, hr⟩
  rw [readCompactU16_eq ho, this]

theorem readCompactU16_prim : Prim readCompactU16 := by
  intro d ho _
  rw [readCompactU16_eq ho]
  cases h : decodeCompactU16 d.rest with
  | ok p =>
    obtain ⟨n, k⟩ := p
    obtain ⟨hn, hk, t, hr⟩ := (decodeCompactU16_ok_iff _ _ _).1 h
    exact ⟨.ok n, k, rfl, by simp, by rw [hr, hk]; simp⟩
  | err e => exact ⟨.err e, 0, by simp, by simp, by omega⟩
  | panic => exact absurd h (decodeCompactU16_ne_panic _)

theorem readCompactU16_stable : Stable readCompactU16 := by
  intro ext d1 d2 h _ a d1' hr
  rw [readCompactU16_eq h.ok1] at hr
  cases hd : decodeCompactU16 d1.rest with
  | ok p =>
    obtain ⟨n, k⟩ := p
    obtain ⟨hn, hk, t, hr'⟩ := (decodeCompactU16_ok_iff _ _ _).1 hd
    rw [hd] at hr; simp at hr
    obtain ⟨rfl, rfl⟩ := hr
    refine ⟨d2.adv k, ?_, h.adv (by rw [hr', hk]; simp), by simp only [Dec.adv_pos]; omega⟩
    rw [hk]
    exact readCompactU16_reads d2.enc n hn d2 (t ++ ext) rfl h.ok2 (by rw [h.rest, hr']; simp)
  | err e => rw [hd] at hr; simp at hr
  | panic => rw [hd] at hr; simp at hr

/-! lengths, byte slices, strings -/

/-- The bytes of a length prefix. -/
def lenBytes (e : Encoding) (n : Nat) : Bytes :=
  match e with
  | .bin => uvarintBytes 10 n
  | .borsh => putUint .le 4 n
  | .compactU16 => Spec.compact n
  | .other => []

/-- Largest length the reader of that encoding accepts. -/
def lenMax : Encoding → Nat
  | .compactU16 => 65535
  | _ => 0x7FFFFFFF

theorem readLength_enc {d : Dec} : readLength d =
    (match d.enc with
      | .bin => (do
        let val ← readUvarint64
        if val > 0x7FFFFFFF then M.err .eof else pure val : DM Nat)
      | .borsh => (do
        let val ← readUint32 .le
        if val > 0x7FFFFFFF then M.err .eof else pure val : DM Nat)
      | .compactU16 => readCompactU16
      | .other => M.panic) d := by
  unfold readLength
  rw [M.bind_apply]
  simp only [M.get_apply]
  cases d.enc <;> rfl

theorem readLength_reads (e : Encoding) (he : e.valid = true) (n : Nat) (hn : n ≤ lenMax e) :
    Reads e readLength (lenBytes e n) n := by
  intro d tail hd ho hr
  rw [readLength_enc, hd]
  cases e with
  | bin =>
    simp only [lenMax] at hn
    obtain ⟨hg, hl, h10⟩ := uvarintBytes_groups n (by omega)
    have h1 := readUvarint64_reads .bin _ hg h10 (by omega)
    have h2 := h1.bind (f := fun val => if val > 0x7FFFFFFF then M.err .eof else pure val) (b2 := []) (b := n)
      (by rw [hl]; rw [if_neg (by omega)]; exact Reads.pure n)
    simpa [lenBytes] using h2 d tail hd ho (by simpa [lenBytes] using hr)
  | borsh =>
    simp only [lenMax] at hn
    have h1 := readUint32_reads .borsh .le n (by omega)
    have h2 := h1.bind (f := fun val => if val > 0x7FFFFFFF then M.err .eof else pure val) (b2 := []) (b := n)
      (by rw [if_neg (by omega)]; exact Reads.pure n)
    simpa [lenBytes] using h2 d tail hd ho (by simpa [lenBytes] using hr)
  | compactU16 => exact readCompactU16_reads _ n hn d tail hd ho hr
  | other => simp [Encoding.valid] at he

theorem readLength_prim : Prim readLength := by
  intro d ho hv
  rw [readLength_enc]
  cases he : d.enc with
  | bin => exact (readUvarint64_prim.bind (f := fun val => if val > 0x7FFFFFFF then M.err .eof else pure val)
      fun _ => Prim.ite (Prim.err _) (Prim.pure _)) d ho hv
  | borsh => exact ((readUint32_prim .le).bind (f := fun val => if val > 0x7FFFFFFF then M.err .eof else pure val)
      fun _ => Prim.ite (Prim.err _) (Prim.pure _)) d ho hv
  | compactU16 => exact readCompactU16_prim d ho hv
  | other => rw [he] at hv; simp [Encoding.valid] at hv

theorem readLength_stable : Stable readLength := by
  intro ext d1 d2 h hv a d1' hr
  rw [readLength_enc] at hr
  rw [readLength_enc, h.enc]
  cases he : d1.enc with
  | bin =>
    rw [he] at hr
    exact (Stable.pbind (f := fun val => if val > 0x7FFFFFFF then M.err .eof else pure val) readUvarint64_prim readUvarint64_stable
      fun _ => Stable.ite (Stable.err _) (Stable.pure _)) ext d1 d2 h hv a d1' hr
  | borsh =>
    rw [he] at hr
    exact (Stable.pbind (f := fun val => if val > 0x7FFFFFFF then M.err .eof else pure val) (readUint32_prim .le) (readUint32_stable .le)
      fun _ => Stable.ite (Stable.err _) (Stable.pure _)) ext d1 d2 h hv a d1' hr
  | compactU16 => rw [he] at hr; exact readCompactU16_stable ext d1 d2 h hv a d1' hr
  | other => rw [he] at hv; simp [Encoding.valid] at hv

/-- the part of `ReadByteSlice` after the length -/
def sliceBody (length : Nat) : DM Bytes := do
  let d ← M.get
  if (d.data.length : Int) < d.pos + length then M.err .notEnough
  else do
    let out ← sliceM length
    advance length
    pure out

theorem readByteSlice_def : readByteSlice = readLength >>= sliceBody := rfl

theorem sliceBody_eq {d : Dec} (ho : d.Ok) (n : Nat) : sliceBody n d =
    if d.rest.length < n then (.err .notEnough, d) else (.ok (d.rest.take n), d.adv n) := by
  have hl := d.rest_length ho
  unfold sliceBody
  simp only [M.bind_apply, M.get_apply]
  simp only [Dec.remaining] at hl
  by_cases h : d.rest.length < n
  · rw [if_pos (by omega), if_pos h]; rfl
  · rw [if_neg (by omega), if_neg h]
    simp only [M.bind_apply, sliceM_ok ho (show n ≤ d.rest.length by omega)]
    rfl

theorem sliceBody_reads (e : Encoding) (bs : Bytes) : Reads e (sliceBody bs.length) bs bs := by
  intro d tail _ ho hr
  rw [sliceBody_eq ho, hr, if_neg (by simp)]; simp

theorem sliceBody_prim (n : Nat) : Prim (sliceBody n) := by
  intro d ho _
  rw [sliceBody_eq ho]
  by_cases h : d.rest.length < n
  · exact ⟨.err .notEnough, 0, by simp [h], by simp, by omega⟩
  · exact ⟨.ok _, n, by rw [if_neg h], by simp, by omega⟩

theorem sliceBody_stable (n : Nat) : Stable (sliceBody n) := by
  intro ext d1 d2 h _ a d1' hr
  rw [sliceBody_eq h.ok1] at hr
  by_cases hl : d1.rest.length < n
  · simp [hl] at hr
  · rw [if_neg hl] at hr
    simp at hr
    obtain ⟨rfl, rfl⟩ := hr
    refine ⟨d2.adv n, ?_, h.adv (by omega), by simp only [Dec.adv_pos]; omega⟩
    rw [sliceBody_eq h.ok2, h.rest, if_neg (by simp; omega), List.take_append_of_le_length (by omega)]

theorem readByteSlice_reads (e : Encoding) (he : e.valid = true) (bs : Bytes) (hn : bs.length ≤ lenMax e) :
    Reads e readByteSlice (lenBytes e bs.length ++ bs) bs :=
  (readLength_reads e he _ hn).bind (sliceBody_reads e bs)
theorem readByteSlice_prim : Prim readByteSlice := readLength_prim.bind sliceBody_prim
theorem readByteSlice_stable : Stable readByteSlice := Stable.pbind readLength_prim readLength_stable sliceBody_stable

theorem readString_prim : Prim readString := readByteSlice_prim
theorem readString_stable : Stable readString := readByteSlice_stable
theorem safeReadUTF8String_prim : Prim safeReadUTF8String := readByteSlice_prim.bind fun _ => Prim.pure _
theorem safeReadUTF8String_stable : Stable safeReadUTF8String :=
  Stable.pbind readByteSlice_prim readByteSlice_stable fun _ => Stable.pure _

theorem readRustString_reads (e : Encoding) (bs : Bytes) (hn : bs.length ≤ 0x7FFFFFFF) :
    Reads e readRustString (putUint .le 8 bs.length ++ bs) bs := by
  refine (readUint64_reads e .le bs.length (by omega)).bind ?_
  rw [if_neg (by omega)]
  exact readNBytes_reads e bs hn
theorem readRustString_prim : Prim readRustString :=
  (readUint64_prim .le).bind fun _ => Prim.ite (Prim.err _) (readNBytes_prim _)
theorem readRustString_stable : Stable readRustString :=
  Stable.pbind (readUint64_prim .le) (readUint64_stable .le) fun _ => Stable.ite (Stable.err _) (readNBytes_stable _)

/-! booleans and flags -/

theorem readBool_eq {d : Dec} (ho : d.Ok) : readBool d =
    match d.rest with
    | [] => (.err .notEnough, d)
    | b :: _ => (.ok (b != 0), d.adv 1) := by
  have hl := d.rest_length ho
  unfold readBool
  simp only [M.bind_apply, M.get_apply]
  cases hr : d.rest with
  | nil => rw [hr] at hl; simp at hl; rw [if_pos (by omega)]; rfl
  | cons b t =>
    rw [hr] at hl; simp at hl
    rw [if_neg (by omega)]
    simp only [M.bind_apply, readByte_eq ho, hr]; rfl

theorem readBool_reads (e : Encoding) (b : UInt8) : Reads e readBool [b] (b != 0) := by
  intro d tail _ ho hr
  rw [readBool_eq ho, hr]; rfl
theorem readBool_prim : Prim readBool := by
  intro d ho _
  rw [readBool_eq ho]
  cases h : d.rest with
  | nil => exact ⟨.err .notEnough, 0, by simp, by simp, by simp⟩
  | cons b t => exact ⟨.ok (b != 0), 1, rfl, by simp, by simp⟩
theorem readBool_stable : Stable readBool := by
  intro ext d1 d2 h _ a d1' hr
  rw [readBool_eq h.ok1] at hr
  cases hd : d1.rest with
  | nil => rw [hd] at hr; simp at hr
  | cons b t =>
    rw [hd] at hr; simp at hr
    obtain ⟨rfl, rfl⟩ := hr
    refine ⟨d2.adv 1, ?_, h.adv (by rw [hd]; simp), by simp only [Dec.adv_pos]; omega⟩
    rw [readBool_eq h.ok2, h.rest, hd]; rfl

theorem readOption_reads (e : Encoding) (b : UInt8) : Reads e readOption [b] (b != 0) := (readByte_reads e b).bind_pure
theorem readOption_prim : Prim readOption := readByte_prim.bind fun _ => Prim.pure _
theorem readOption_stable : Stable readOption := Stable.pbind readByte_prim readByte_stable fun _ => Stable.pure _

theorem readCOption_reads (e : Encoding) (b : Bool) : Reads e readCOption (putUint .le 4 (if b then 1 else 0)) b := by
  have := (readUint32_reads e .le (if b then 1 else 0) (by cases b <;> simp)).bind
    (f := fun b => if b > 1 then M.err .coption else pure (b != 0)) (b2 := []) (b := b)
    (by cases b <;> exact Reads.pure _)
  rw [List.append_nil] at this
  exact this
theorem readCOption_prim : Prim readCOption := (readUint32_prim .le).bind fun _ => Prim.ite (Prim.err _) (Prim.pure _)
theorem readCOption_stable : Stable readCOption :=
  Stable.pbind (readUint32_prim .le) (readUint32_stable .le) fun _ => Stable.ite (Stable.err _) (Stable.pure _)

/-! peek / skip / discard / read into -/

theorem peek_eq {d : Dec} (ho : d.Ok) (n : Int) : peek n d =
    if n < 0 then (.err .invalidLen, d)
    else if (d.rest.length : Int) < n then (.err .notEnough, d)
    else (.ok (d.rest.take n.toNat), d) := by
  have hl := d.rest_length ho
  unfold peek
  by_cases h0 : n < 0
  · simp [h0]
  simp only [h0, if_false, M.bind_apply, M.get_apply]
  by_cases h : (d.rest.length : Int) < n
  · rw [if_pos (by omega), if_pos h]; rfl
  · rw [if_neg (by omega), if_neg h]
    obtain ⟨m, rfl⟩ : ∃ m : Nat, n = m := ⟨n.toNat, by omega⟩
    simp [sliceM_ok ho (show m ≤ d.rest.length by omega)]

theorem skipBytes_eq {d : Dec} (ho : d.Ok) (hlen : d.data.length < 2 ^ 63) (n : Nat) : skipBytes n d =
    if d.rest.length < n then (.err .notEnough, d) else (.ok (), d.adv n) := by
  have hl := d.rest_length ho
  have hdl : d.rest.length ≤ d.data.length := by simp [Dec.rest]
  unfold skipBytes
  simp only [M.bind_apply, M.get_apply]
  rw [← hl, toUnsigned_natCast (by omega)]
  by_cases h : d.rest.length < n
  · rw [if_pos h, if_pos h]; rfl
  · rw [if_neg h, if_neg h]
    have : toSigned 64 n = n := by unfold toSigned; rw [if_pos (by omega)]
    rw [this]; rfl

theorem discard_eq {d : Dec} (ho : d.Ok) (hlen : d.data.length < 2 ^ 63) (n : Int) : discard n d =
    if n = 0 then (.ok (), d)
    else if n < 0 ∨ n > 0x7FFFFFFF then (.err .invalidLen, d)
    else if (d.rest.length : Int) < n then (.err .notEnough, d)
    else (.ok (), d.adv n.toNat) := by
  unfold discard
  by_cases h0 : n = 0
  · simp [h0]
  by_cases h1 : n < 0 ∨ n > 0x7FFFFFFF
  · simp [h0, h1]
  simp only [h0, h1, if_false]
  rw [skipBytes_eq ho hlen]
  by_cases h : (d.rest.length : Int) < n
  · rw [if_pos (by omega), if_pos h]
  · rw [if_neg (by omega), if_neg h]

theorem readInto_eq {d : Dec} (ho : d.Ok) (k : Nat) : readInto k d =
    if d.rest.length < k then (.err .shortBuffer, d) else (.ok (d.rest.take k), d.adv k) := by
  have hl := d.rest_length ho
  unfold readInto
  simp only [M.bind_apply, M.get_apply]
  simp only [Dec.remaining] at hl
  by_cases h : d.rest.length < k
  · rw [if_pos (by omega), if_pos h]; rfl
  · rw [if_neg (by omega), if_neg h]
    have hk : (d.rest.take k).length = k := by simp; omega
    simp only [M.bind_apply, restM_ok ho, hk, advance_apply]
    simp

end prims

end Verif
