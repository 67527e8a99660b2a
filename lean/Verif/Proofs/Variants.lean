import Verif.Proofs.Bridge
import Verif.Spec.Variants
/-! Variant ids and definitions. -/
namespace Verif
open Verif.Spec

theorem typeIDFromBytes_eq_pad8 (w : Bytes) : typeIDFromBytes w = pad8 w := by
  unfold typeIDFromBytes pad8
  rw [List.take_append, List.take_replicate]
  congr 2
  omega

theorem pad8_length (w : Bytes) : (pad8 w).length = 8 := by simp [pad8]

theorem typeIDFromBytes_append {w : Bytes} (h : w.length ≤ 8) :
    typeIDFromBytes w = w ++ List.replicate (8 - w.length) 0 := by
  unfold typeIDFromBytes; rw [List.take_of_length_le h]

theorem typeIDFromBytes_full {w : Bytes} (h : w.length = 8) : typeIDFromBytes w = w := by
  rw [typeIDFromBytes_append (by omega), h]; simp

theorem typeIDFromUvarint32_eq {v : Nat} (h : v < 2 ^ 32) :
    typeIDFromUvarint32 v = .ok (typeIDFromBytes (uvarintBytes 10 v)) := by
  unfold typeIDFromUvarint32
  rw [putUvarint8_eq v (by omega), if_pos (by omega)]

theorem uvarintBytes_length {v : Nat} (h : v < 2 ^ 32) : (uvarintBytes 10 v).length ≤ 8 := by
  have h2 : (2 : Nat) ^ 64 < 2 ^ (7 * 10) := by decide
  obtain ⟨init, last, he, -, -, -, -, hlen⟩ := uvarintBytes_spec 10 v (by omega) (by decide)
  rw [he]
  simpa using (hlen 7).2 (by rw [show 7 * (7 + 1) = 56 by decide]; omega)

theorem uvarint32_inv {v : Nat} (h : v < 2 ^ 32) : uvarint32FromTypeID (typeIDFromBytes (uvarintBytes 10 v)) = v := by
  unfold uvarint32FromTypeID
  rw [typeIDFromBytes_append (uvarintBytes_length h), goUvarint_uvarintBytes v (by omega)]
  exact Nat.mod_eq_of_lt h

theorem uint32_inv {v : Nat} (h : v < 2 ^ 32) (o : Order) : uint32FromTypeID (typeIDFromUint32 v o) o = .ok v := by
  unfold uint32FromTypeID typeIDFromUint32
  rw [typeIDFromBytes_append (by simp)]
  exact getUint_putUint o 4 v _ (by omega)

theorem uint8_inv {v : Nat} (h : v < 2 ^ 8) : uint8FromTypeID (typeIDFromUint8 v) = v := by
  unfold uint8FromTypeID typeIDFromUint8
  rw [typeIDFromBytes_append (by simp)]
  simp [UInt8.toNat_ofNat']
  omega

theorem leValue_getLE (w : Bytes) : leValue w = getLE w := by
  induction w with
  | nil => rfl
  | cons b w ih => simp [leValue, getLE, ih]

/-- The id of variant `i`, as the model computes it once `i` fits. -/
def vid (H : Bytes → Bytes) (enc : TypeIDEncoding) (i : Nat) (name : Bytes) : Bytes :=
  match enc with
  | .uvarint32 => typeIDFromBytes (uvarintBytes 10 i)
  | .uint32 => typeIDFromUint32 i .le
  | .uint8 => typeIDFromUint8 i
  | .anchor => typeIDFromBytes ((H (globalColon ++ name)).take 8)
  | _ => typeIDFromUint8 0

theorem sighash_global (H : Bytes → Bytes) (name : Bytes) :
    sighash H globalNs name = (H (globalColon ++ name)).take 8 := rfl

/-- `i` is a number that ids of this encoding can express. -/
def Fits (enc : TypeIDEncoding) (i : Nat) : Prop :=
  match enc with
  | .uvarint32 => i < 2 ^ 32
  | .uint32 => i < 2 ^ 32
  | .uint8 => i < 2 ^ 8
  | .other => False
  | _ => True

theorem variantID_eq (H : Bytes → Bytes) {enc : TypeIDEncoding} {i : Nat} (name : Bytes) (h : Fits enc i) :
    variantID H enc i name = .ok (vid H enc i name) := by
  cases enc <;> simp only [Fits] at h <;> simp only [variantID, vid, sighash_global]
  · rw [Nat.mod_eq_of_lt h, typeIDFromUvarint32_eq h]
  · rw [Nat.mod_eq_of_lt h]
  · rw [Nat.mod_eq_of_lt h]

theorem addVariants_spec (H : Bytes → Bytes) (ts : List VariantType) : ∀ (d : VariantDef) (i : Nat),
    (∀ j t, ts[j]? = some t → Fits d.encoding (i + j)) →
    (∀ j k t u, ts[j]? = some t → ts[k]? = some u → vid H d.encoding (i + j) t.name = vid H d.encoding (i + k) u.name →
      j = k) →
    ∃ d', addVariants H d i ts = .ok d' ∧ d'.encoding = d.encoding ∧
      (∀ j t, ts[j]? = some t → d'.typeOf (vid H d.encoding (i + j) t.name) = some t.type ∧
        d'.nameOf (vid H d.encoding (i + j) t.name) = some t.name) ∧
      (∀ x, (∀ j t, ts[j]? = some t → vid H d.encoding (i + j) t.name ≠ x) → d'.typeOf x = d.typeOf x) ∧
      (∀ x, (∀ j t, ts[j]? = some t → vid H d.encoding (i + j) t.name ≠ x) → d'.nameOf x = d.nameOf x) ∧
      ((ts.map (·.name)).Nodup → ∀ j t, ts[j]? = some t → d'.idOf t.name = some (vid H d.encoding (i + j) t.name)) ∧
      (∀ n, n ∉ ts.map (·.name) → d'.idOf n = d.idOf n) := by
  induction ts with
  | nil => intro d i _ _; exact ⟨d, rfl, rfl, by simp, by simp, by simp, by simp, by simp⟩
  | cons t ts ih =>
    intro d i hf hd
    have h0 := hf 0 t rfl
    rw [Nat.add_zero] at h0
    unfold addVariants
    rw [variantID_eq H t.name h0]
    simp only []
    obtain ⟨d', he, henc, hin, hout, hout2, hid, hidout⟩ := ih
      { d with typeOf := mapSet d.typeOf (vid H d.encoding i t.name) t.type
               nameOf := mapSet d.nameOf (vid H d.encoding i t.name) t.name
               idOf := mapSet d.idOf t.name (vid H d.encoding i t.name) } (i + 1)
      (fun j u hj => by have := hf (j + 1) u hj; rwa [show i + 1 + j = i + (j + 1) by omega])
      (fun j k u w hj hk he => by
        have := hd (j + 1) (k + 1) u w hj hk (by
          rw [show i + (j + 1) = i + 1 + j by omega, show i + (k + 1) = i + 1 + k by omega]; exact he)
        omega)
    simp only [] at henc hin hout hout2 hid hidout
    have hne : ∀ j u, ts[j]? = some u → vid H d.encoding (i + 1 + j) u.name ≠ vid H d.encoding i t.name := by
      intro j u hj h
      have := hd (j + 1) 0 u t hj rfl (by rw [show i + (j + 1) = i + 1 + j by omega]; exact h)
      omega
    refine ⟨d', he, henc, ?_, ?_, ?_, ?_, ?_⟩
    · intro j u hj
      cases j with
      | zero =>
        simp only [List.getElem?_cons_zero, Option.some.injEq] at hj
        subst hj
        rw [Nat.add_zero, hout _ hne, hout2 _ hne]
        simp [mapSet]
      | succ j =>
        rw [show i + (j + 1) = i + 1 + j by omega]
        exact hin j u (by simpa using hj)
    · intro x hx
      rw [hout x fun j u hj => by have := hx (j + 1) u hj; rwa [show i + 1 + j = i + (j + 1) by omega]]
      have := hx 0 t rfl
      rw [Nat.add_zero] at this
      simp [mapSet, Ne.symm this]
    · intro x hx
      rw [hout2 x fun j u hj => by have := hx (j + 1) u hj; rwa [show i + 1 + j = i + (j + 1) by omega]]
      have := hx 0 t rfl
      rw [Nat.add_zero] at this
      simp [mapSet, Ne.symm this]
    · intro hn j u hj
      rw [List.map_cons, List.nodup_cons] at hn
      cases j with
      | zero =>
        simp only [List.getElem?_cons_zero, Option.some.injEq] at hj
        subst hj
        rw [hidout _ hn.1]
        simp [mapSet]
      | succ j =>
        rw [show i + (j + 1) = i + 1 + j by omega]
        exact hid hn.2 j u (by simpa using hj)
    · intro n hn
      rw [List.map_cons, List.mem_cons, not_or] at hn
      rw [hidout n hn.2]
      simp [mapSet, hn.1]

theorem fits_of_suffice {H : Bytes → Bytes} {enc : TypeIDEncoding} {types : List VariantType}
    (h : IDsSuffice H enc types) {j : Nat} {t : VariantType} (hj : types[j]? = some t) : Fits enc j := by
  obtain ⟨hlt, -⟩ := List.getElem?_eq_some_iff.1 hj
  cases enc <;> simp only [IDsSuffice, Fits] at * <;> omega

theorem vid_inj {H : Bytes → Bytes} {enc : TypeIDEncoding} {types : List VariantType} (h : IDsSuffice H enc types)
    {j k : Nat} {t u : VariantType} (hj : types[j]? = some t) (hk : types[k]? = some u)
    (he : vid H enc j t.name = vid H enc k u.name) : j = k := by
  have hfj := fits_of_suffice h hj
  have hfk := fits_of_suffice h hk
  obtain ⟨hjl, hjt⟩ := List.getElem?_eq_some_iff.1 hj
  obtain ⟨hkl, hkt⟩ := List.getElem?_eq_some_iff.1 hk
  cases enc <;> simp only [IDsSuffice, Fits, vid] at *
  · rw [← uvarint32_inv hfj, he, uvarint32_inv hfk]
  · have := uint32_inv hfj .le
    rw [he, uint32_inv hfk] at this
    simpa using this.symm
  · rw [← uint8_inv hfj, he, uint8_inv hfk]
  · rw [typeIDFromBytes_full (by simp [h.1]), typeIDFromBytes_full (by simp [h.1])] at he
    have := h.2
    rw [List.nodup_iff_pairwise_ne, List.pairwise_iff_getElem] at this
    rcases Nat.lt_trichotomy j k with hlt | heq | hgt
    · exact (this j k (by simpa using hjl) (by simpa using hkl) hlt (by simp [hjt, hkt, he])).elim
    · exact heq
    · exact (this k j (by simpa using hkl) (by simpa using hjl) hgt (by simp [hjt, hkt, he])).elim
  · omega

/-- The definition built from a list with enough ids. -/
theorem newVariantDef_spec {H : Bytes → Bytes} {enc : TypeIDEncoding} {types : List VariantType}
    (h : IDsSuffice H enc types) :
    ∃ d, newVariantDef H enc types = .ok d ∧ d.encoding = enc ∧
      (∀ j t, types[j]? = some t → d.typeOf (vid H enc j t.name) = some t.type ∧
        d.nameOf (vid H enc j t.name) = some t.name) ∧
      (∀ x, (∀ j t, types[j]? = some t → vid H enc j t.name ≠ x) → d.typeOf x = none) ∧
      (∀ x, (∀ j t, types[j]? = some t → vid H enc j t.name ≠ x) → d.nameOf x = none) ∧
      ((types.map (·.name)).Nodup → ∀ j t, types[j]? = some t → d.idOf t.name = some (vid H enc j t.name)) ∧
      (∀ n, n ∉ types.map (·.name) → d.idOf n = none) := by
  obtain ⟨d, he, henc, h1, h2, h3, h4, h5⟩ := addVariants_spec H types
    { encoding := enc, typeOf := fun _ => none, nameOf := fun _ => none, idOf := fun _ => none } 0
    (fun j t hj => by rw [Nat.zero_add]; exact fits_of_suffice h hj)
    (fun j k t u hj hk he => by rw [Nat.zero_add, Nat.zero_add] at he; exact vid_inj h hj hk he)
  simp only [Nat.zero_add] at h1 h2 h3 h4 h5
  refine ⟨d, ?_, henc, h1, h2, h3, h4, h5⟩
  unfold newVariantDef
  cases enc with
  | other => exact absurd h (by simp [IDsSuffice])
  | noTypeID => simp only [IDsSuffice] at h; simp only []; rw [if_neg (by omega)]; exact he
  | _ => exact he

theorem idWire_reads {H : Bytes → Bytes} {enc : TypeIDEncoding} {i : Nat} {name w : Bytes} (e : Encoding)
    (hf : Fits enc i) (hH : enc = .anchor → ∀ x, (H x).length = 32) (h : IDWire H enc i name w) :
    Reads e (readVariantID enc) w (vid H enc i name) := by
  cases enc <;> simp only [Fits, IDWire] at hf h
  · have := (readUvarint64_reads e w h.1 h.2.1 (by omega)).bind_pure (f := fun v => v % 2 ^ 32)
    intro d tail hd ho hr
    have h1 := this d tail hd ho hr
    have h2 : readUvarint32 d = (.ok i, d.adv w.length) := by
      rw [h.2.2, Nat.mod_eq_of_lt hf] at h1; exact h1
    unfold readVariantID
    simp only []
    rw [M.bind_ok h2, M.lift_apply, typeIDFromUvarint32_eq hf]
    rfl
  · have hw : w = putUint .le 4 i := by
      rw [leValue_getLE] at h; show w = putLE 4 i
      rw [← h.2, ← h.1, putLE_getLE]
    rw [hw]
    exact (readUint32_reads e .le i hf).bind_pure (f := fun v => typeIDFromUint32 v .le)
  · have hw : w = [UInt8.ofNat i] := by
      match w, h.1 with
      | [b], _ => have := h.2; simp only [leValue] at this; rw [← this]; simp
    rw [hw]
    exact (readUint8_reads e i hf).bind_pure (f := fun v => typeIDFromBytes [UInt8.ofNat v])
  · have hl : w.length = 8 := by rw [h]; simp [hH rfl]
    have := (readNBytes_reads e w (by omega)).bind_pure (f := typeIDFromBytes)
    rw [hl] at this
    show Reads e readTypeID w _
    rw [vid, ← h]
    exact this
  · rw [h]
    intro d tail _ _ _
    simp [readVariantID, vid, Dec.adv]

end Verif
