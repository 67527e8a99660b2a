import Verif.Spec.Shape
import Verif.Proofs.DecodeWire
/-!
Decoding arbitrary bytes: no panic, cursor inside the buffer, result of the right shape.
-/
set_option linter.unusedSimpArgs false
namespace Verif
open Spec

/-- Started inside the buffer with at most `N` bytes left, `r` does not panic, moves the cursor forward inside the buffer,
and what it returns satisfies `Q`. -/
def Safe {α : Type} (e : Encoding) (N : Nat) (r : DM α) (Q : α → Prop) : Prop :=
  ∀ d : Dec, d.Ok → d.enc = e → d.cur ≠ none → d.rest.length ≤ N →
    ∃ res k c, r d = (res, d.to k c) ∧ c ≠ none ∧ k ≤ d.rest.length ∧ res ≠ .panic ∧ ∀ a, res = .ok a → Q a

section
variable {α β : Type} {e : Encoding} {N : Nat}

theorem Safe.pure {Q : α → Prop} (a : α) (h : Q a) : Safe e N (pure a) Q := by
  intro d _ _ hc _
  exact ⟨.ok a, 0, d.cur, by simp [Dec.to], hc, by omega, by simp, fun b hb => by cases hb; exact h⟩

theorem Safe.err {Q : α → Prop} (x : Err) : Safe e N (M.err x) Q := by
  intro d _ _ hc _
  exact ⟨.err x, 0, d.cur, by simp [Dec.to], hc, by omega, by simp, fun b hb => by cases hb⟩

theorem Safe.bind {r : DM α} {f : α → DM β} {P : α → Prop} {Q : β → Prop} (h1 : Safe e N r P)
    (h2 : ∀ a, P a → Safe e N (f a) Q) : Safe e N (r >>= f) Q := by
  intro d ho he hc hN
  obtain ⟨res, k, c, hr, hc1, hk, hp, hq⟩ := h1 d ho he hc hN
  cases res with
  | panic => exact absurd rfl hp
  | err x => exact ⟨.err x, k, c, by rw [M.bind_err hr], hc1, hk, by simp, fun b hb => by cases hb⟩
  | ok a =>
    have hrest : (d.to k c).rest.length = d.rest.length - k := by
      rw [Dec.to_rest, Dec.adv_rest ho, List.length_drop]
    obtain ⟨res2, k2, c2, hr2, hc2, hk2, hp2, hq2⟩ := h2 a (hq a rfl) (d.to k c) (Dec.to_ok (Dec.adv_ok ho hk)) he hc1
      (by rw [hrest]; omega)
    refine ⟨res2, k + k2, c2, by rw [M.bind_ok hr, hr2, Dec.to_to], hc2, ?_, hp2, hq2⟩
    rw [hrest] at hk2; omega

theorem Safe.weaken {r : DM α} {P Q : α → Prop} (h : Safe e N r P) (hq : ∀ a, P a → Q a) : Safe e N r Q := by
  intro d ho he hc hN
  obtain ⟨res, k, c, hr, hc1, hk, hp, hpq⟩ := h d ho he hc hN
  exact ⟨res, k, c, hr, hc1, hk, hp, fun a ha => hq a (hpq a ha)⟩

theorem Safe.map {r : DM α} {f : α → β} {P : α → Prop} {Q : β → Prop} (h : Safe e N r P) (hq : ∀ a, P a → Q (f a)) :
    Safe e N (r >>= fun x => Pure.pure (f x)) Q := h.bind fun a ha => Safe.pure _ (hq a ha)

theorem Prim.safe (hv : e.valid = true) {r : DM α} (h : Prim r) : Safe e N r fun _ => True := by
  intro d ho he hc _
  obtain ⟨res, k, hr, hp, hk⟩ := h d ho (by rw [he]; exact hv)
  exact ⟨res, k, d.cur, hr, hc, hk, hp, fun _ _ => trivial⟩

theorem Safe.set {o : Order} {r : DM α} {Q : α → Prop} (h : Safe e N r Q) : Safe e N (setCurD o >>= fun _ => r) Q := by
  intro d ho he _ hN
  obtain ⟨res, k, c, hr, hc1, hk, hp, hq⟩ := h { d with cur := some o } ho he (by simp) hN
  refine ⟨res, k, c, ?_, hc1, hk, hp, hq⟩
  simp only [setCurD, M.bind_apply, M.modify_apply]
  rw [hr]; rfl

theorem Safe.get {f : Dec → DM α} {Q : α → Prop}
    (h : ∀ d0 : Dec, d0.Ok → d0.enc = e → d0.cur ≠ none → d0.rest.length ≤ N → Safe e N (f d0) Q) :
    Safe e N (M.get >>= f) Q := by
  intro d ho he hc hN
  rw [M.bind_apply, M.get_apply]
  exact h d ho he hc hN d ho he hc hN

theorem Safe.ite {c : Prop} [Decidable c] {r s : DM α} {Q : α → Prop} (h1 : c → Safe e N r Q) (h2 : ¬ c → Safe e N s Q) :
    Safe e N (if c then r else s) Q := by
  by_cases h : c
  · rw [if_pos h]; exact h1 h
  · rw [if_neg h]; exact h2 h

theorem Safe.repeat {f : DM α} {Q : α → Prop} (h : Safe e N f Q) (n : Nat) :
    Safe e N (repeatM f n) fun xs => xs.length = n ∧ ∀ x ∈ xs, Q x := by
  induction n with
  | zero => exact Safe.pure _ ⟨rfl, by simp⟩
  | succ n ih =>
    unfold repeatM
    refine h.bind fun a ha => ih.map fun xs hxs => ⟨by rw [List.length_cons, hxs.1], ?_⟩
    intro x hx
    rcases List.mem_cons.mp hx with rfl | hx
    · exact ha
    · exact hxs.2 x hx

theorem Safe.traverse {γ : Type} {f : γ → DM α} {Q : α → Prop} (ys : List γ) (h : ∀ y ∈ ys, Safe e N (f y) Q) :
    Safe e N (traverseM f ys) fun xs => xs.length = ys.length ∧ ∀ x ∈ xs, Q x := by
  induction ys with
  | nil => exact Safe.pure _ ⟨rfl, by simp⟩
  | cons y ys ih =>
    unfold traverseM
    refine (h y (by simp)).bind fun a ha => (ih fun z hz => h z (by simp [hz])).map fun xs hxs =>
      ⟨by rw [List.length_cons, hxs.1, List.length_cons], ?_⟩
    intro x hx
    rcases List.mem_cons.mp hx with rfl | hx
    · exact ha
    · exact hxs.2 x hx
end

/-! ### primitives -/
section
variable {e : Encoding} {N : Nat}

theorem readNBytes_safe (n : Int) : Safe e N (readNBytes n) fun b => (b.length : Int) = n ∧ b.length ≤ N := by
  intro d ho he hc hN
  rw [readNBytes_eq ho]
  by_cases h0 : n = 0
  · rw [if_pos h0]
    exact ⟨.ok [], 0, d.cur, by simp [Dec.to], hc, by omega, by simp, fun b hb => by cases hb; simp [h0]⟩
  rw [if_neg h0]
  by_cases h1 : n < 0 ∨ n > 0x7FFFFFFF
  · rw [if_pos h1]
    exact ⟨.err .invalidLen, 0, d.cur, by simp [Dec.to], hc, by omega, by simp, fun b hb => by cases hb⟩
  rw [if_neg h1]
  by_cases h2 : (d.rest.length : Int) < n
  · rw [if_pos h2]
    exact ⟨.err .notEnough, 0, d.cur, by simp [Dec.to], hc, by omega, by simp, fun b hb => by cases hb⟩
  rw [if_neg h2]
  refine ⟨.ok (d.rest.take n.toNat), n.toNat, d.cur, rfl, hc, by omega, by simp, fun b hb => ?_⟩
  cases hb
  rw [List.length_take]; omega

theorem readByteSlice_safe (hv : e.valid = true) : Safe e N readByteSlice fun b => b.length ≤ N := by
  rw [readByteSlice_def]
  refine (readLength_prim.safe hv).bind fun n _ => ?_
  intro d ho he hc hN
  obtain ⟨res, k, hr, hp, hk⟩ := sliceBody_prim n d ho (by rw [he]; exact hv)
  refine ⟨res, k, d.cur, hr, hc, hk, hp, fun b hb => ?_⟩
  subst hb
  rw [sliceBody_eq ho] at hr
  split at hr
  · simp at hr
  · simp only [Prod.mk.injEq, Res.ok.injEq] at hr
    rw [← hr.1, List.length_take]; omega

theorem unmarshalLib_safe (hv : e.valid = true) (l : Lib) (old : Val) (h : LibShaped N l old) :
    Safe e N (unmarshalLib l old) (LibShaped N l) := by
  cases l <;> simp only [unmarshalLib]
  case safeString => exact (safeReadUTF8String_prim.safe hv).map fun _ _ => trivial
  case bool => exact (readBool_prim.safe hv).map fun _ _ => trivial
  case hexBytes => exact (readByteSlice_safe hv).map fun b hb => hb
  case varint16 => exact (readVarint16_prim.safe hv).map fun _ _ => trivial
  case varuint16 => exact (readUvarint16_prim.safe hv).map fun _ _ => trivial
  case varuint32 => exact (readUvarint64_prim.safe hv).map fun _ _ => trivial
  case varint32 => exact (readVarint32_prim.safe hv).map fun _ _ => trivial
  case jsonFloat64 =>
    refine Safe.get fun d0 _ _ hc _ => ?_
    cases h0 : d0.cur with
    | none => exact absurd h0 hc
    | some o => exact ((readFloat64_prim o).safe hv).map fun _ _ => trivial
  case int64 =>
    refine Safe.get fun d0 _ _ hc _ => ?_
    cases h0 : d0.cur with
    | none => exact absurd h0 hc
    | some o => exact ((readInt64_prim o).safe hv).map fun _ _ => trivial
  case uint64 =>
    refine Safe.get fun d0 _ _ hc _ => ?_
    cases h0 : d0.cur with
    | none => exact absurd h0 hc
    | some o => exact ((readUint64_prim o).safe hv).map fun _ _ => trivial
  case uint128 => exact Safe.get fun d0 _ _ _ _ => ((readUint128_prim _).safe hv).map fun _ _ => trivial
  case int128 => exact Safe.get fun d0 _ _ _ _ => ((readUint128_prim _).safe hv).map fun _ _ => trivial
  case float128 => exact Safe.get fun d0 _ _ _ _ => ((readUint128_prim _).safe hv).map fun _ _ => trivial
  case emptyVariant => exact Safe.pure _ h

theorem readUints_safe (hv : e.valid = true) (l : Int) (w : Width) (h : l < 0 → w = .w8) :
    Safe e N (readUints l w) fun xs => (xs.length : Int) = l ∧ xs.length ≤ N ∧ ∀ x ∈ xs, ∃ n, x = .uint n := by
  unfold readUints
  refine Safe.get fun d0 ho _ _ hN => ?_
  refine Safe.ite (fun _ => Safe.err _) fun hle => ?_
  have hrem := d0.rest_length ho
  have hw : ∀ w : Width, 0 ≤ l → (l * w.bytes : Int) ≤ d0.remaining → l ≤ (N : Int) := by
    intro w h0 h1
    have : (l : Int) ≤ l * w.bytes := by
      cases w <;> simp only [Width.bytes] <;> omega
    omega
  have hword : w ≠ .w8 → Safe e N (if l < 0 then M.panic else do
        let ns ← repeatM (readUintW w .le) l.toNat
        pure (ns.map Val.uint)) fun xs => (xs.length : Int) = l ∧ xs.length ≤ N ∧ ∀ x ∈ xs, ∃ n, x = .uint n := by
    intro hne
    have h0 : ¬ l < 0 := fun hl => hne (h hl)
    rw [if_neg h0]
    have hs : Safe e N (readUintW w .le) fun _ => True := by
      cases w
      · exact readUint8_prim.safe hv
      · exact (readUint16_prim _).safe hv
      · exact (readUint32_prim _).safe hv
      · exact (readUint64_prim _).safe hv
    have hl := hw w (by omega) (by omega)
    refine (hs.repeat l.toNat).map fun ns hns => ⟨?_, ?_, ?_⟩
    · rw [List.length_map, hns.1]; omega
    · rw [List.length_map, hns.1]; omega
    · intro x hx
      obtain ⟨n, -, rfl⟩ := List.mem_map.mp hx
      exact ⟨n, rfl⟩
  cases w
  · refine (readNBytes_safe l).map fun b hb => ⟨by rw [List.length_map]; exact hb.1, by rw [List.length_map]; exact hb.2, ?_⟩
    intro x hx
    obtain ⟨n, -, rfl⟩ := List.mem_map.mp hx
    exact ⟨_, rfl⟩
  · exact hword (by decide)
  · exact hword (by decide)
  · exact hword (by decide)

theorem readSeqLen_prim (hv : e.valid = true) : Prim (readSeqLen e) := by
  cases e
  · exact readLength_prim
  · exact readCompactU16_prim
  · exact readUint32_prim _
  · cases hv

theorem readFlag_prim (hv : e.valid = true) : Prim (readFlag e) := by
  cases e
  · exact (readUint32_prim _).bind fun _ => Prim.pure _
  · exact readByte_prim.bind fun _ => Prim.pure _
  · exact readOption_prim
  · cases hv

theorem uint_shaped {t : Ty} {w : Width} (h : t.uintKind = some w) {N : Nat} (n : Nat) : Shaped N t (.uint n) := by
  cases t <;> simp only [Ty.uintKind, Ty.kind] at h <;> try contradiction
  · exact trivial
  · exact trivial
  · rename_i l
    cases l <;> simp only [Lib.kind] at h <;> first | contradiction | exact trivial
end

theorem lib_zero_shaped (N : Nat) (l : Lib) : LibShaped N l l.zero := by
  cases l <;> simp [LibShaped, Lib.zero]

mutual
theorem zero_shaped (N : Nat) : (t : Ty) → Shaped N t t.zero
  | .bool | .uint _ _ | .int _ _ | .borshEnum | .f32 | .f64 | .str | .ptr _ | .slice _ | .map _ _ | .iface
  | .plainInt | .plainUint | .other => by simp [Ty.zero, Shaped]
  | .lib l => by simpa only [Ty.zero, Shaped] using lib_zero_shaped N l
  | .array n t => by
    simp only [Ty.zero, Shaped, List.length_replicate, true_and]
    intro x hx
    rw [(List.mem_replicate.mp hx).2]
    exact zero_shaped N t
  | .struct fs => by simpa only [Ty.zero, Shaped] using zeros_shaped N fs
termination_by structural t => t
theorem zeros_shaped (N : Nat) : (fs : Fields) → ShapedFields N fs fs.zeros
  | .nil => by simp [Fields.zeros, ShapedFields]
  | .cons _ t fs => by simp only [Fields.zeros, ShapedFields]; exact ⟨zero_shaped N t, zeros_shaped N fs⟩
termination_by structural fs => fs
end

theorem absentVal_shaped {N : Nat} : (t : Ty) → (v : Val) → Shaped N t v → Shaped N t (absentVal t v)
  | .ptr (.ptr t), v, h => by
    cases v <;> try exact zero_shaped N _
    rename_i p
    cases p with
    | none => exact zero_shaped N _
    | some x =>
      simp only [absentVal, Shaped] at h ⊢
      exact absentVal_shaped (.ptr t) x h
  | .bool, v, h | .uint _ _, v, h | .int _ _, v, h | .borshEnum, v, h | .f32, v, h | .f64, v, h | .str, v, h
  | .lib _, v, h | .slice _, v, h | .array _ _, v, h | .map _ _, v, h | .struct _, v, h | .iface, v, h | .plainInt, v, h
  | .plainUint, v, h | .other, v, h => by simp only [absentVal]; exact zero_shaped N _
  | .ptr .bool, v, h | .ptr (.uint _ _), v, h | .ptr (.int _ _), v, h | .ptr .borshEnum, v, h | .ptr .f32, v, h
  | .ptr .f64, v, h | .ptr .str, v, h | .ptr (.lib _), v, h | .ptr (.slice _), v, h | .ptr (.array _ _), v, h
  | .ptr (.map _ _), v, h | .ptr (.struct _), v, h | .ptr .iface, v, h | .ptr .plainInt, v, h | .ptr .plainUint, v, h
  | .ptr .other, v, h => by simp only [absentVal]; exact zero_shaped N _
termination_by structural t => t

theorem absentBase_shaped {N : Nat} : (t : Ty) → Shaped N t (absentBase t)
  | .ptr t => by simp only [absentBase, Shaped]; exact absentBase_shaped t
  | .bool | .uint _ _ | .int _ _ | .borshEnum | .f32 | .f64 | .str
  | .lib _ | .slice _ | .array _ _ | .map _ _ | .struct _ | .iface | .plainInt
  | .plainUint | .other => by simp only [absentBase]; exact zero_shaped N _
termination_by structural t => t

theorem decField_safe {e : Encoding} {N : Nat} (hv : e.valid = true) (t : Ty) (o : Opt) (old : Val) (core : DM Val)
    (hold : Shaped N t old) (h1 : o.optional = true → t.asLib = none)
    (h2 : e = .borsh → o.coptional = true → t.asLib = none ∧ (o.optional = true → t.baseLib = false))
    (hc : Safe e N core (Shaped N t)) : Safe e N (decField e t o old core) (Shaped N t) := by
  unfold decField
  refine Safe.set ?_
  refine Safe.ite (fun ho => ?_) (fun ho => ?_)
  · rw [if_neg (by rw [h1 ho]; simp)]
    refine ((readFlag_prim hv).safe hv).bind fun b _ => Safe.ite (fun _ => ?_) fun _ => Safe.pure _ (absentVal_shaped t old hold)
    refine Safe.ite (fun hco => ?_) fun _ => hc
    rw [if_neg (by rw [(h2 hco.1 hco.2).2 ho]; simp)]
    exact (readCOption_prim.safe hv).bind fun b _ => Safe.ite (fun _ => hc) fun _ => Safe.pure _ (absentBase_shaped t)
  · refine Safe.ite (fun hco => ?_) fun _ => hc
    rw [if_neg (by rw [(h2 hco.1 hco.2).1]; simp)]
    exact (readCOption_prim.safe hv).bind fun b _ => Safe.ite (fun _ => hc) fun _ => Safe.pure _ (absentVal_shaped t old hold)

/-- Integer kinds have a size, which is not negative for unsigned kinds. -/
theorem sizeof_shaped {N : Nat} (t : Ty) (v : Val) (hi : isInteger t.kind = true) (h : Shaped N t v) :
    ∃ n, sizeofVal t.kind v = .ok n ∧ (isSigned t.kind = false → 0 ≤ n) := by
  cases t <;> simp only [Ty.kind, isInteger] at hi <;> try contradiction
  case lib l =>
    cases l <;> simp only [Lib.kind] at hi <;> (try contradiction) <;>
      cases v <;> simp only [Shaped, LibShaped] at h <;> simp only [Ty.kind, Lib.kind, sizeofVal, isSigned] <;>
      refine ⟨_, rfl, ?_⟩ <;> intro hs <;> first | (cases hs; done) | (split <;> omega)
  all_goals
    cases v <;> simp only [Shaped] at h <;> simp only [Ty.kind, sizeofVal, isSigned] <;>
      refine ⟨_, rfl, ?_⟩ <;> intro hs <;> first | (cases hs; done) | (split <;> omega)

theorem recordSize_safe {e : Encoding} {N : Nat} {m : FieldMeta} {t : Ty} {x : Val} {sm : List (Bytes × Int)}
    {negs : List Bytes} (hx : Shaped N t x) (hk : m.tag.sizeOf = [] ∨ isInteger t.kind = true)
    (hsm : ∀ p ∈ sm, p.2 < 0 → p.1 ∈ negs) :
    Safe e N (recordSize m t x sm) fun sm' => ∀ p ∈ sm', p.2 < 0 →
      p.1 ∈ if m.tag.sizeOf ≠ [] ∧ isSigned t.kind then m.tag.sizeOf :: negs else negs := by
  unfold recordSize
  by_cases h0 : m.tag.sizeOf = []
  · rw [if_pos h0]
    refine Safe.pure _ ?_
    intro p hp hl
    rw [if_neg (fun h => h.1 h0)]
    exact hsm p hp hl
  · rw [if_neg h0]
    obtain ⟨n, hn, hpos⟩ := sizeof_shaped t x (hk.resolve_left h0) hx
    rw [hn]
    intro d ho he hc hN
    refine ⟨.ok ((m.tag.sizeOf, n) :: sm), 0, d.cur, by simp [M.bind_apply, Dec.to], hc, by omega, by simp, ?_⟩
    intro sm' hs p hp hl
    cases hs
    rcases List.mem_cons.mp hp with rfl | hp
    · by_cases hsg : isSigned t.kind = true
      · rw [if_pos ⟨h0, hsg⟩]; simp
      · exact absurd (hpos (by simpa using hsg)) (by simp only at hl; omega)
    · split
      · exact List.mem_cons_of_mem _ (hsm p hp hl)
      · exact hsm p hp hl

theorem lookup_neg {sm : List (Bytes × Int)} {negs : List Bytes} {name : Bytes} {s : Int}
    (hsm : ∀ p ∈ sm, p.2 < 0 → p.1 ∈ negs) (h : lookupSize name sm = some s) (hs : s < 0) : negs.contains name = true := by
  induction sm with
  | nil => simp [lookupSize] at h
  | cons p sm ih =>
    obtain ⟨n, k⟩ := p
    simp only [lookupSize] at h
    split at h
    · rename_i hn
      subst hn
      simp only [Option.some.injEq] at h
      subst h
      simpa using hsm (n, k) (by simp) hs
    · exact ih (fun q hq => hsm q (by simp [hq])) h

theorem decString_safe {e : Encoding} {N : Nat} (hv : e.valid = true) :
    Safe e N (if e = .bin then readRustString else readString) fun s => s.length ≤ N := by
  refine Safe.ite (fun _ => ?_) fun _ => readByteSlice_safe hv
  exact ((readUint64_prim .le).safe hv).bind fun n _ => Safe.ite (fun _ => Safe.err _) fun _ =>
    (readNBytes_safe n).weaken fun b hb => hb.2

theorem extensionEnds_safe {e : Encoding} {N : Nat} (m : FieldMeta) :
    Safe e N (extensionEnds m) fun b => b = true → m.tag.binExt = true := by
  unfold extensionEnds
  refine Safe.ite (fun hb => ?_) fun _ => Safe.pure _ (by simp)
  intro d ho _ hc _
  refine ⟨.ok (d.rest.length == 0), 0, d.cur, ?_, hc, by omega, by simp, fun _ _ _ => hb⟩
  unfold noBytesLeft
  rw [M.bind_ok (restM_ok ho)]
  simp [Dec.to]

theorem setEntry_all {P : Val × Val → Prop} {k : Ty} {x : Val × Val} (hx : P x) :
    ∀ {m : List (Val × Val)}, (∀ y ∈ m, P y) → ∀ y ∈ setEntry k x m, P y
  | [], _, y, hy => by
    rw [setEntry, List.mem_singleton] at hy
    rw [hy]; exact hx
  | z :: m, hm, y, hy => by
    rw [setEntry] at hy
    split at hy
    · rcases List.mem_cons.mp hy with rfl | hy
      · exact hx
      · exact hm y (by simp [hy])
    · rcases List.mem_cons.mp hy with rfl | hy
      · exact hm _ (by simp)
      · exact setEntry_all hx (fun w hw => hm w (by simp [hw])) y hy

theorem foldl_setEntry_all {P : Val × Val → Prop} {k : Ty} :
    ∀ {xs m : List (Val × Val)}, (∀ x ∈ xs, P x) → (∀ y ∈ m, P y) → ∀ y ∈ xs.foldl (fun m x => setEntry k x m) m, P y
  | [], m, _, hm => hm
  | x :: xs, m, hx, hm => by
    rw [List.foldl_cons]
    exact foldl_setEntry_all (fun y hy => hx y (by simp [hy])) (setEntry_all (hx x (by simp)) hm)

theorem directLib_shaped {N : Nat} {t : Ty} {l : Lib} {isPtr : Bool} (h : t.directLib = some (l, isPtr)) {x : Val}
    (hx : LibShaped N l x) : Shaped N t (if isPtr then .ptr (some x) else x) := by
  rcases directLib_cases h with ⟨rfl, rfl⟩ | ⟨rfl, rfl⟩
  · simpa [Shaped] using hx
  · simpa [Shaped] using hx

mutual
theorem decCore_safe {e : Encoding} {N : Nat} (hv : e.valid = true) : (t : Ty) → (neg : Bool) → (o : Opt) → (old : Val) →
    decodable e t neg = true → Shaped N t old → (∀ s, o.sizeOf = some s → s < 0 → neg = true) →
    Safe e N (decCore e t o old) (Shaped N t)
  | .lib l, neg, o, old, _, hs, _ => by
    simp only [decCore, Shaped] at hs ⊢
    exact unmarshalLib_safe hv l old hs
  | .ptr t, neg, o, old, hd, hs, hn => by
    simp only [decCore]
    refine (decCore_safe hv t neg o (old.deref t) (by simpa [decodable] using hd) ?_ hn).map fun x hx => by simpa [Shaped] using hx
    cases old with
    | ptr p =>
      cases p with
      | none => exact zero_shaped N t
      | some x => simpa [Shaped, Val.deref] using hs
    | _ => simp [Shaped] at hs
  | .slice t, neg, o, old, hd, hs, hn => by
    simp only [decodable, Bool.and_eq_true] at hd
    simp only [decCore]
    have hcont : ∀ l : Int, (l < 0 → neg = true) → Safe e N (if e = .borsh ∧ l = 0 then pure old
        else do
          let d ← M.get
          if l > d.remaining then M.err .eof
          else
            match t.uintKind with
            | some w => do
              let xs ← readUints l w
              pure (.seq (some xs))
            | none => do
              let xs ← repeatM (do setCurD .le; decCore e t {} t.zero) l.toNat
              pure (.seq (some xs))) (Shaped N (.slice t)) := by
      intro l hl
      refine Safe.ite (fun _ => Safe.pure _ hs) fun _ => Safe.get fun d0 ho _ _ hN => Safe.ite (fun _ => Safe.err _) fun hle => ?_
      have hrem := d0.rest_length ho
      cases hu : t.uintKind with
      | some w =>
        refine (readUints_safe hv l w ?_).map fun xs hxs => ?_
        · intro h
          have h1 := hd.1
          rw [hl h, hu] at h1
          cases w <;> simp at h1 <;> rfl
        · simp only [Shaped, Option.getD_some]
          refine ⟨hxs.2.1, fun x hx => ?_⟩
          obtain ⟨n, rfl⟩ := hxs.2.2 x hx
          exact uint_shaped hu n
      | none =>
        refine (((decCore_safe hv t false {} t.zero hd.2 (zero_shaped N t) (by simp)).set (o := .le)).repeat l.toNat).map fun xs hxs => ?_
        simp only [Shaped, Option.getD_some]
        exact ⟨by rw [hxs.1]; omega, hxs.2⟩
    cases ho : o.sizeOf with
    | some s => exact (Safe.pure (Q := fun l => l = s) s rfl).bind fun l hl => hcont l (by rw [hl]; exact hn s ho)
    | none =>
      exact ((readSeqLen_prim hv).safe hv).bind fun n _ => hcont n (by omega)
  | .array n t, neg, o, old, hd, hs, _ => by
    simp only [decodable] at hd
    simp only [decCore]
    cases hu : t.uintKind with
    | some w =>
      refine (readUints_safe hv n w (by omega)).map fun xs hxs => ?_
      simp only [Shaped]
      refine ⟨by omega, fun x hx => ?_⟩
      obtain ⟨n, rfl⟩ := hxs.2.2 x hx
      exact uint_shaped hu n
    | none =>
      cases old with
      | arr ys =>
        simp only [Shaped] at hs
        simp only [Val.elems]
        refine (Safe.traverse ys fun y hy => (decCore_safe hv t false {} y hd (hs.2 y hy) (by simp)).set).map fun xs hxs => ?_
        simp only [Shaped]
        exact ⟨by rw [hxs.1, hs.1], hxs.2⟩
      | _ => simp [Shaped] at hs
  | .map k t, neg, o, old, hd, hs, _ => by
    simp only [decodable, Bool.and_eq_true] at hd
    simp only [decCore]
    refine ((readSeqLen_prim hv).safe hv).bind fun l _ => Safe.ite (fun _ => Safe.pure _ hs) fun _ => ?_
    have hent : Safe e N (do
        setCurD .le
        let x ← decCore e k {} k.zero
        setCurD .le
        let y ← decCore e t {} t.zero
        pure (x, y)) fun p => Shaped N k p.1 ∧ Shaped N t p.2 :=
      ((decCore_safe hv k false {} k.zero hd.1 (zero_shaped N k) (by simp)).bind fun x hx =>
        ((decCore_safe hv t false {} t.zero hd.2 (zero_shaped N t) (by simp)).map fun y hy => ⟨hx, hy⟩).set).set
    refine (hent.repeat l).map fun xs hxs => ?_
    simp only [Shaped, Option.getD_some]
    exact foldl_setEntry_all (P := fun p => Shaped N k p.1 ∧ Shaped N t p.2) hxs.2 (by simp)
  | .struct fs, neg, o, old, hd, hs, _ => by
    simp only [decodable] at hd
    simp only [decCore]
    cases old with
    | struct vs =>
      simp only [Shaped] at hs
      simp only [Val.fields, decStruct]
      refine Safe.ite (fun h => ?_) fun h => ?_
      · rw [if_pos h] at hd
        refine (readUint8_prim.safe hv).bind fun tag _ => Safe.ite (fun _ => Safe.err _) fun hlt => ?_
        refine (decNth_safe hv fs (tag + 1) vs hd (by omega) hs).map fun ws hws => ?_
        have hf := h.2
        cases fs with
        | nil => simp [Fields.isEnum] at hf
        | cons m t fs =>
          cases t <;> simp only [Fields.isEnum] at hf <;> try (cases hf; done)
          cases ws with
          | nil => simp [ShapedFields] at hws
          | cons w ws =>
            simp only [ShapedFields] at hws
            simpa [Shaped, ShapedFields] using hws.2
      · rw [if_neg h] at hd
        exact (decFields_safe hv fs [] [] false vs hd hs (by simp)).map fun ws hws => by simpa [Shaped] using hws
    | _ => simp [Shaped] at hs
  | .iface, _, _, _, _, hs, _ => by simp only [decCore]; exact Safe.pure _ hs
  | .bool, _, o, _, _, _, _ => by
    simp only [decCore, decPlain, decScalar]; exact (readBool_prim.safe hv).map fun _ _ => by simp [Shaped]
  | .uint w _, _, o, _, _, _, _ => by
    simp only [decCore, decPlain]
    cases w <;> simp only [decScalar]
    · exact (readByte_prim.safe hv).map fun _ _ => by simp [Shaped]
    · exact ((readUint16_prim _).safe hv).map fun _ _ => by simp [Shaped]
    · exact ((readUint32_prim _).safe hv).map fun _ _ => by simp [Shaped]
    · exact ((readUint64_prim _).safe hv).map fun _ _ => by simp [Shaped]
  | .int w _, _, o, _, _, _, _ => by
    simp only [decCore, decPlain]
    cases w <;> simp only [decScalar]
    · exact (readInt8_prim.safe hv).map fun _ _ => by simp [Shaped]
    · exact ((readInt16_prim _).safe hv).map fun _ _ => by simp [Shaped]
    · exact ((readInt32_prim _).safe hv).map fun _ _ => by simp [Shaped]
    · exact ((readInt64_prim _).safe hv).map fun _ _ => by simp [Shaped]
  | .borshEnum, _, o, _, _, _, _ => by
    simp only [decCore, decPlain, decScalar]; exact (readByte_prim.safe hv).map fun _ _ => by simp [Shaped]
  | .f32, _, o, _, _, _, _ => by
    simp only [decCore, decPlain, decScalar]; exact ((readFloat32_prim _).safe hv).map fun _ _ => by simp [Shaped]
  | .f64, _, o, _, _, _, _ => by
    simp only [decCore, decPlain, decScalar]; exact ((readFloat64_prim _).safe hv).map fun _ _ => by simp [Shaped]
  | .str, _, o, _, _, _, _ => by
    simp only [decCore, decPlain, decScalar]; exact (decString_safe hv).map fun _ h => by simpa [Shaped] using h
  | .plainInt, _, _, _, _, _, _ => by simp only [decCore]; exact Safe.err _
  | .plainUint, _, _, _, _, _, _ => by simp only [decCore]; exact Safe.err _
  | .other, _, _, _, _, _, _ => by simp only [decCore]; exact Safe.err _
termination_by structural t => t
theorem decFields_safe {e : Encoding} {N : Nat} (hv : e.valid = true) : (fs : Fields) → (sm : List (Bytes × Int)) →
    (negs : List Bytes) → (seen : Bool) → (vs : List Val) →
    decodableFields e fs negs seen = true → ShapedFields N fs vs → (∀ p ∈ sm, p.2 < 0 → p.1 ∈ negs) →
    Safe e N (decFields e fs sm seen vs) (ShapedFields N fs)
  | .nil, _, _, _, _, _, _, _ => by simp only [decFields]; exact Safe.pure _ (by simp [ShapedFields])
  | .cons m t fs, sm, negs, seen, [], hd, hs, hsm => by simp [ShapedFields] at hs
  | .cons m t fs, sm, negs, seen, v :: vs, hd, hs, hsm => by
    simp only [ShapedFields] at hs
    simp only [decodableFields] at hd
    simp only [decFields]
    refine Safe.ite (fun hsk => ?_) fun hsk => ?_
    · rw [if_pos hsk] at hd
      exact (decFields_safe hv fs sm negs seen vs hd hs.2 hsm).map fun ws hws => by simpa [ShapedFields] using ⟨hs.1, hws⟩
    rw [if_neg hsk] at hd
    simp only [Bool.and_eq_true] at hd
    obtain ⟨⟨hse, hf⟩, hrest⟩ := hd
    rw [if_neg (by
      intro h
      rw [Bool.and_eq_true, Bool.not_eq_true'] at h
      rw [h.1, h.2] at hse
      simp at hse)]
    have hmono : ∀ p ∈ sm, p.2 < 0 → p.1 ∈ (if m.tag.sizeOf ≠ [] ∧ isSigned t.kind then m.tag.sizeOf :: negs else negs) := by
      intro p hp hl
      split
      · exact List.mem_cons_of_mem _ (hsm p hp hl)
      · exact hsm p hp hl
    refine (extensionEnds_safe m).bind fun atEnd _ => Safe.ite (fun _ => ?_) fun hgo => ?_
    · exact (decFields_safe hv fs sm _ _ vs hrest hs.2 hmono).map fun ws hws => by simpa [ShapedFields] using ⟨hs.1, hws⟩
    have hex : m.exported = true := by
      cases he : m.exported
      · rw [he] at hgo; simp at hgo
      · rfl
    have hgen : ∀ hf2 : ((!m.tag.option || t.asLib.isNone) &&
         (!(e == .borsh && m.tag.coption) || (t.asLib.isNone && (!m.tag.option || !t.baseLib))) &&
         (m.tag.sizeOf == [] || isInteger t.kind) &&
         decodable e t (negs.contains m.name)) = true, Safe e N (do
          let x ← decField e t (fieldOpt m sm) v (decCore e t (fieldOpt m sm) v)
          let sm ← recordSize m t x sm
          let rest ← decFields e fs sm (seen || m.tag.binExt) vs
          pure (x :: rest)) (ShapedFields N (.cons m t fs)) := by
      intro hf2
      simp only [Bool.and_eq_true] at hf2
      obtain ⟨⟨⟨h1, h2⟩, h3⟩, h4⟩ := hf2
      have hcore := decCore_safe hv t (negs.contains m.name) (fieldOpt m sm) v h4 hs.1
        (fun s hls hs0 => lookup_neg hsm hls hs0)
      refine (decField_safe hv t (fieldOpt m sm) v _ hs.1 ?_ ?_ hcore).bind fun x hx => ?_
      · intro ho
        rw [show m.tag.option = true from ho] at h1
        simpa using h1
      · intro he ho
        rw [show m.tag.coption = true from ho, he] at h2
        simp only [beq_self_eq_true, Bool.and_self, Bool.not_true, Bool.false_or, Bool.and_eq_true] at h2
        refine ⟨by simpa using h2.1, fun hop => ?_⟩
        have := h2.2
        rw [show m.tag.option = true from hop] at this
        simpa using this
      · refine (recordSize_safe hx (by simpa using h3) hsm).bind fun sm' hsm' => ?_
        exact (decFields_safe hv fs sm' _ _ vs hrest hs.2 hsm').map fun ws hws => by simpa [ShapedFields] using ⟨hx, hws⟩
    cases hl : (if e = .borsh then t.directLib else none) with
    | some p =>
      obtain ⟨l, isPtr⟩ := p
      have hdl : t.directLib = some (l, isPtr) := by
        split at hl
        · exact hl
        · cases hl
      refine (unmarshalLib_safe hv l l.zero (lib_zero_shaped N l)).bind fun x hx => ?_
      exact (decFields_safe hv fs sm _ _ vs hrest hs.2 hmono).map fun ws hws => by
        simpa [ShapedFields] using ⟨directLib_shaped hdl hx, hws⟩
    | none =>
      refine hgen ?_
      rw [hex] at hf
      simp only [Bool.not_true, Bool.false_or, Bool.or_eq_true] at hf
      rcases hf with hf | hf
      · simp only [Bool.and_eq_true, beq_iff_eq] at hf
        rw [if_pos hf.1] at hl
        rw [hl] at hf
        simp at hf
      · exact hf
termination_by structural fs => fs
theorem decNth_safe {e : Encoding} {N : Nat} (hv : e.valid = true) : (fs : Fields) → (i : Nat) → (vs : List Val) →
    decodableAll e fs = true → i < fs.length → ShapedFields N fs vs → Safe e N (decNth e fs i vs) (ShapedFields N fs)
  | .nil, i, vs, _, hi, _ => by simp [Fields.length] at hi
  | .cons m t fs, i, [], _, _, hs => by simp [ShapedFields] at hs
  | .cons m t fs, 0, v :: vs, hd, _, hs => by
    simp only [ShapedFields] at hs
    simp only [decodableAll, Bool.and_eq_true] at hd
    simp only [decNth]
    exact ((decCore_safe hv t false {} v hd.1 hs.1 (by simp)).map fun x hx => by simpa [ShapedFields] using ⟨hx, hs.2⟩).set
  | .cons m t fs, i + 1, v :: vs, hd, hi, hs => by
    simp only [ShapedFields] at hs
    simp only [decodableAll, Bool.and_eq_true] at hd
    simp only [decNth]
    exact (decNth_safe hv fs i vs hd.2 (by simpa [Fields.length] using hi) hs.2).map fun ws hws => by
      simpa [ShapedFields] using ⟨hs.1, hws⟩
termination_by structural fs => fs
end

theorem libShaped_mono {N M : Nat} (h : N ≤ M) (l : Lib) (v : Val) (hs : LibShaped N l v) : LibShaped M l v := by
  cases l <;> cases v <;> simp only [LibShaped] at hs ⊢
  · omega
  · rename_i xs
    cases xs
    · trivial
    · simp [LibShaped] at hs

mutual
theorem shaped_mono {N M : Nat} (h : N ≤ M) : (t : Ty) → (v : Val) → Shaped N t v → Shaped M t v
  | .lib l, v, hs => by simp only [Shaped] at hs ⊢; exact libShaped_mono h l v hs
  | .ptr t, v, hs => by
    cases v <;> try (simp [Shaped] at hs; done)
    rename_i p
    cases p with
    | none => simp [Shaped]
    | some x => simp only [Shaped] at hs ⊢; exact shaped_mono h t x hs
  | .slice t, v, hs => by
    cases v <;> try (simp [Shaped] at hs; done)
    simp only [Shaped] at hs ⊢
    exact ⟨by omega, fun x hx => shaped_mono h t x (hs.2 x hx)⟩
  | .array n t, v, hs => by
    cases v <;> try (simp [Shaped] at hs; done)
    simp only [Shaped] at hs ⊢
    exact ⟨hs.1, fun x hx => shaped_mono h t x (hs.2 x hx)⟩
  | .map k t, v, hs => by
    cases v <;> try (simp [Shaped] at hs; done)
    simp only [Shaped] at hs ⊢
    exact fun x hx => ⟨shaped_mono h k _ (hs x hx).1, shaped_mono h t _ (hs x hx).2⟩
  | .struct fs, v, hs => by
    cases v <;> try (simp [Shaped] at hs; done)
    simp only [Shaped] at hs ⊢
    exact shapedFields_mono h fs _ hs
  | .str, v, hs => by
    cases v <;> try (simp [Shaped] at hs; done)
    simp only [Shaped] at hs ⊢
    omega
  | .bool, v, hs | .uint _ _, v, hs | .int _ _, v, hs | .borshEnum, v, hs | .f32, v, hs | .f64, v, hs | .iface, v, hs
  | .plainInt, v, hs | .plainUint, v, hs | .other, v, hs => by cases v <;> simp [Shaped] at hs ⊢
termination_by structural t => t
theorem shapedFields_mono {N M : Nat} (h : N ≤ M) : (fs : Fields) → (vs : List Val) → ShapedFields N fs vs → ShapedFields M fs vs
  | .nil, vs, hs => by cases vs <;> simp [ShapedFields] at hs ⊢
  | .cons m t fs, [], hs => by simp [ShapedFields] at hs
  | .cons m t fs, v :: vs, hs => by
    simp only [ShapedFields] at hs ⊢
    exact ⟨shaped_mono h t v hs.1, shapedFields_mono h fs vs hs.2⟩
termination_by structural fs => fs
end

/-- Decoding any bytes into a decodable type. -/
theorem decode_safe {e : Encoding} (hv : e.valid = true) (t : Ty) (old : Val) (ht : decodable e t false = true) (d : Dec)
    (ho : d.Ok) (he : d.enc = e) {N : Nat} (hN : d.rest.length ≤ N) (hs : Shaped N t old) :
    ∃ res k c, decode t old d = (res, d.to k c) ∧ k ≤ d.rest.length ∧ res ≠ .panic ∧
      ∀ v, res = .ok v → Shaped N t v := by
  obtain ⟨res, k, c, hr, -, hk, hp, hq⟩ :=
    decCore_safe (N := N) hv t false {} old ht hs (by simp) { d with cur := some .le } ho he (by simp) hN
  refine ⟨res, k, c, ?_, hk, hp, hq⟩
  have hne : ¬ d.enc = .other := by rw [he]; intro h; rw [h] at hv; cases hv
  unfold decode
  rw [M.bind_apply, M.get_apply]
  simp only []
  rw [if_neg hne, he]
  simp only [setCurD, M.bind_apply, M.modify_apply]
  exact hr

end Verif
