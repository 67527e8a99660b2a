import Verif.Spec.Classes
import Verif.Spec.Enums
/-!
# What the classes of types in the specifications mean

One theorem for each predicate on types that the specifications share with the model, filed under the property that needs it most.
-/
namespace Verif.Props
open Spec

/-- The elements written in one piece. -/
theorem C24_bulk (t : Ty) (w : Width) : t.uintKind = some w ↔ Unsigned t w := by
  constructor
  · intro h
    cases t with
    | uint w' b => cases h; exact .uint _ _
    | borshEnum => cases h; exact .borshEnum
    | lib l =>
      cases l <;> cases h
      · exact .varuint16
      · exact .varuint32
      · exact .uint64
    | _ => cases h
  · rintro (_ | _) <;> rfl

/-- The enums. -/
theorem C42_enum (fs : Fields) : fs.isEnum = true ↔ ∃ m fs', fs = .cons m .borshEnum fs' ∧ m.tag.isEnum = true := by
  constructor
  · intro h
    cases fs with
    | nil => cases h
    | cons m t fs' =>
      cases t <;> first
        | exact ⟨m, fs', rfl, h⟩
        | cases h
  · rintro ⟨m, fs', rfl, h⟩
    exact h

/-- The number of fields. -/
theorem C42_fields : (fs : Fields) → fs.length = (types fs).length
  | .nil => rfl
  | .cons _ _ fs => by simp only [Fields.length, types, List.length_cons, C42_fields fs]

/-- The types whose own methods an optional field cannot use. -/
theorem C43_library : (t : Ty) → (t.baseLib = true ↔ PointsToLib t)
  | .lib l => ⟨fun _ => .lib l, fun _ => rfl⟩
  | .ptr t => ⟨fun h => .ptr ((C43_library t).1 h), fun h => by cases h with | ptr h => exact (C43_library t).2 h⟩
  | .bool | .uint _ _ | .int _ _ | .borshEnum | .f32 | .f64 | .str | .slice _ | .array _ _ | .map _ _ | .struct _ | .iface
  | .plainInt | .plainUint | .other => ⟨fun h => (nomatch h), fun h => (nomatch h)⟩

/-- The field types that Borsh decodes by their own methods. -/
theorem C43_direct (t : Ty) (l : Lib) (p : Bool) : t.directLib = some (l, p) ↔ t = (if p then .ptr (.lib l) else .lib l) := by
  constructor
  · intro h
    cases t with
    | lib l' => cases h; rfl
    | ptr t => cases t <;> cases h; rfl
    | _ => cases h
  · intro h
    cases p <;> subst h <;> rfl

theorem C43_isLibrary (t : Ty) (l : Lib) : t.asLib = some l ↔ t = .lib l := by
  cases t <;> simp [Ty.asLib]

/-- What a counter announces. -/
theorem C40_announces (t : Ty) (v : Val) (hv : ∀ n, v = .uint n → n < 2 ^ 64) (z : Int) :
    sizeofVal t.kind v = .ok z ↔ Announces t v z := by
  have key : ∀ n : Nat, n < 2 ^ 64 → (if toSigned 64 n < 0 then 0 else toSigned 64 n) = if n < 2 ^ 63 then (n : Int) else 0 := by
    intro n hn
    simp only [toSigned]
    split <;> split <;> omega
  constructor
  · intro h
    cases v with
    | int z' =>
      cases t with
      | int w b => cases h; exact .int _ _ _
      | plainInt => cases h; exact .plainInt _
      | lib l =>
        cases l <;> cases h
        · exact .varint16 _
        · exact .varint32 _
        · exact .int64 _
      | _ => cases h
    | uint n =>
      have hn := hv n rfl
      have un : ∀ w, Unsigned t w → (Res.ok (if toSigned 64 n < 0 then 0 else toSigned 64 n) : Res Int) = .ok z → Announces t (.uint n) z := by
        intro w hw h
        rw [key n hn] at h
        cases h
        split
        · exact .small hw (by assumption)
        · exact .large hw (by omega) hn
      cases t with
      | uint w b => exact un _ (.uint w b) h
      | borshEnum => exact un _ .borshEnum h
      | plainUint =>
        simp only [sizeofVal, Ty.kind, key n hn] at h
        cases h
        split
        · exact .plainSmall (by assumption)
        · exact .plainLarge (by omega) hn
      | lib l =>
        cases l <;> first
          | (cases h; done)
          | exact un _ .varuint16 h
          | exact un _ .varuint32 h
          | exact un _ .uint64 h
      | _ => cases h
    | _ => cases t <;> first | (cases h; done) | (rename_i l; cases l <;> cases h)
  · intro h
    cases h with
    | @small t w hu n hn =>
      have h1 : (if toSigned 64 n < 0 then 0 else toSigned 64 n) = (n : Int) := by rw [key n (by omega), if_pos hn]
      cases hu <;> exact congrArg Res.ok h1
    | @large t w hu n hn hn' =>
      have h1 : (if toSigned 64 n < 0 then 0 else toSigned 64 n) = 0 := by rw [key n hn', if_neg (by omega)]
      cases hu <;> exact congrArg Res.ok h1
    | @plainSmall n hn =>
      exact congrArg Res.ok (show (if toSigned 64 n < 0 then 0 else toSigned 64 n) = (n : Int) by rw [key n (by omega), if_pos hn])
    | @plainLarge n hn hn' =>
      exact congrArg Res.ok (show (if toSigned 64 n < 0 then 0 else toSigned 64 n) = 0 by rw [key n hn', if_neg (by omega)])
    | _ => rfl

/-- The announcement that counts is the last one made, which stands first. -/
theorem C40_latest (name : Bytes) (n : Int) : (sm : List (Bytes × Int)) →
    (lookupSize name sm = some n ↔ ∃ l r, sm = l ++ (name, n) :: r ∧ ∀ p ∈ l, p.1 ≠ name)
  | [] => by simp [lookupSize]
  | (a, z) :: sm => by
    rw [lookupSize]
    split
    · rename_i h
      subst h
      constructor
      · intro h
        cases h
        exact ⟨[], sm, rfl, by simp⟩
      · rintro ⟨l, r, h, hl⟩
        cases l with
        | nil => cases h; rfl
        | cons p l => cases h; exact absurd rfl (hl (a, z) (by simp))
    · rename_i h
      rw [C40_latest name n sm]
      constructor
      · rintro ⟨l, r, rfl, hl⟩
        exact ⟨(a, z) :: l, r, rfl, by simpa [h] using hl⟩
      · rintro ⟨l, r, h', hl⟩
        cases l with
        | nil => cases h'; exact absurd rfl h
        | cons p l => cases h'; exact ⟨l, r, rfl, fun p hp => hl p (by simp [hp])⟩

/-! ### examples -/

example : Unsigned (.lib .varuint32) .w32 ∧ ¬ ∃ w, Unsigned .plainUint w := ⟨.varuint32, by rintro ⟨w, h⟩; cases h⟩

example : PointsToLib (.ptr (.ptr (.lib .bool))) ∧ ¬ PointsToLib (.slice (.lib .bool)) := ⟨.ptr (.ptr (.lib _)), nofun⟩

example : Announces (.uint .w64 false) (.uint (2 ^ 63)) 0 ∧ Announces (.uint .w8 false) (.uint 255) 255 :=
  ⟨.large (.uint _ _) (by decide) (by decide), .small (.uint _ _) (by decide)⟩

example : lookupSize [65] [([66], 1), ([65], 2), ([65], 3)] = some 2 :=
  (C40_latest [65] 2 _).2 ⟨[([66], 1)], [([65], 3)], rfl, by decide⟩

end Verif.Props
