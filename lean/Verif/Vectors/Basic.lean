import Verif.Model.Arguments
import Verif.Model.StructTag
/-!
# Helpers for the test vectors of the repository

The files of this directory restate, on the model, what the tests of the repository (`*_test.go`) expect of the code.
The tests are data the authors of the library know the program to satisfy, so an example here that would not check
would show that the model is not the program.  Values cannot be compared by a derived decision procedure (they are a
nested type), hence `same`.
-/
namespace Verif.Vectors
open Verif

/-- A Go string literal. -/
def s (x : String) : Bytes := x.toUTF8.toList

/-- Bytes written in hexadecimal, as `hex.DecodeString` reads them in the tests. -/
def hex (x : String) : Bytes :=
  match go (s x) with
  | some b => b
  | none => []
where
  digit (b : UInt8) : Option UInt8 :=
    if 48 ≤ b ∧ b ≤ 57 then some (b - 48) else if 97 ≤ b ∧ b ≤ 102 then some (b - 87) else none
  go : Bytes → Option Bytes
    | [] => some []
    | a :: b :: rest =>
      match digit a, digit b, go rest with
      | some x, some y, some r => some ((x * 16 + y) :: r)
      | _, _, _ => none
    | _ => none

mutual
/-- Structural equality of values. -/
def same : Val → Val → Bool
  | .bool a, .bool b => a == b
  | .uint a, .uint b => a == b
  | .int a, .int b => a == b
  | .float a, .float b => a == b
  | .str a, .str b => a == b
  | .bytes a, .bytes b => a == b
  | .u128 a b c, .u128 a' b' c' => a == a' && b == b' && c == c'
  | .ptr none, .ptr none => true
  | .ptr (some a), .ptr (some b) => same a b
  | .seq none, .seq none => true
  | .seq (some a), .seq (some b) => sames a b
  | .arr a, .arr b => sames a b
  | .map none, .map none => true
  | .map (some a), .map (some b) => sameEntries a b
  | .struct a, .struct b => sames a b
  | .nil, .nil => true
  | _, _ => false
def sames : List Val → List Val → Bool
  | [], [] => true
  | a :: as, b :: bs => same a b && sames as bs
  | _, _ => false
def sameEntries : List (Val × Val) → List (Val × Val) → Bool
  | [], [] => true
  | (k, v) :: as, (k', v') :: bs => same k k' && same v v' && sameEntries as bs
  | _, _ => false
end

mutual
theorem same_eq : ∀ a b : Val, same a b = true → a = b
  | .bool a, b, h | .uint a, b, h | .int a, b, h | .float a, b, h | .str a, b, h | .bytes a, b, h => by
    cases b <;> simp_all [same]
  | .u128 _ _ _, b, h => by cases b <;> simp_all [same]
  | .ptr none, b, h => by
    cases b <;> simp [same] at h ⊢
    rename_i p; cases p <;> simp_all [same]
  | .ptr (some a), b, h => by
    cases b <;> simp [same] at h ⊢
    rename_i p; cases p <;> simp [same] at h ⊢
    exact same_eq _ _ h
  | .seq none, b, h => by
    cases b <;> simp [same] at h ⊢
    rename_i p; cases p <;> simp_all [same]
  | .seq (some a), b, h => by
    cases b <;> simp [same] at h ⊢
    rename_i p; cases p <;> simp [same] at h ⊢
    exact sames_eq _ _ h
  | .arr a, b, h => by
    cases b <;> simp [same] at h ⊢
    exact sames_eq _ _ h
  | .map none, b, h => by
    cases b <;> simp [same] at h ⊢
    rename_i p; cases p <;> simp_all [same]
  | .map (some a), b, h => by
    cases b <;> simp [same] at h ⊢
    rename_i p; cases p <;> simp [same] at h ⊢
    exact sameEntries_eq _ _ h
  | .struct a, b, h => by
    cases b <;> simp [same] at h ⊢
    exact sames_eq _ _ h
  | .nil, b, h => by cases b <;> simp_all [same]
theorem sames_eq : ∀ a b : List Val, sames a b = true → a = b
  | [], b, h => by cases b <;> simp_all [sames]
  | a :: as, b, h => by
    cases b <;> simp [sames] at h ⊢
    exact ⟨same_eq _ _ h.1, sames_eq _ _ h.2⟩
theorem sameEntries_eq : ∀ a b : List (Val × Val), sameEntries a b = true → a = b
  | [], b, h => by cases b <;> simp_all [sameEntries]
  | (k, v) :: as, b, h => by
    cases b <;> simp [sameEntries] at h ⊢
    obtain ⟨⟨h1, h2⟩, h3⟩ := h
    exact ⟨Prod.ext (same_eq _ _ h1) (same_eq _ _ h2), sameEntries_eq _ _ h3⟩
end

/-- A successful outcome with this value. -/
def isOk (r : Res Val) (v : Val) : Bool :=
  match r with
  | .ok w => same w v
  | _ => false

theorem ok_of {r : Res Val} {v : Val} (h : isOk r v = true) : r = .ok v := by
  unfold isOk at h
  split at h
  · rw [same_eq _ _ h]
  · exact absurd h (by simp)

/-- `require.NoError(t, enc.Encode(v)); require.Equal(t, bytes, buf.Bytes())`, and then decoding these bytes into a zero
variable gives `back`. -/
def both (e : Encoding) (t : Ty) (v : Val) (bytes : Bytes) (back : Val) : Bool :=
  marshal e t v == (.ok (), bytes) && isOk (unmarshal e t t.zero bytes) back

theorem both_iff {e : Encoding} {t : Ty} {v : Val} {bytes : Bytes} {back : Val} (h : both e t v bytes back = true) :
    marshal e t v = (.ok (), bytes) ∧ unmarshal e t t.zero bytes = .ok back := by
  rw [both, Bool.and_eq_true, beq_iff_eq] at h
  exact ⟨h.1, ok_of h.2⟩

/-- Encoding succeeds and decoding the bytes into a zero variable gives the value back. -/
def roundTrips (e : Encoding) (t : Ty) (v back : Val) : Bool :=
  match marshal e t v with
  | (.ok _, b) => isOk (unmarshal e t t.zero b) back
  | _ => false

theorem roundTrips_iff {e : Encoding} {t : Ty} {v back : Val} (h : roundTrips e t v back = true) :
    ∃ b, marshal e t v = (.ok (), b) ∧ unmarshal e t t.zero b = .ok back := by
  unfold roundTrips at h
  split at h
  · rename_i b hb; exact ⟨b, hb, ok_of h⟩
  · exact absurd h (by simp)

/-- A struct given by its fields with their raw tags, parsed as the library does; as in Go a field is exported if its name
begins with a capital letter. -/
def fields : List (String × Ty × String) → Fields
  | [] => .nil
  | (n, t, raw) :: rest =>
    .cons { name := s n, exported := decide ((s n).headD 0 < 97), tag := parseTag (s raw) } t (fields rest)

/-- The struct type with these fields. -/
def struct (fs : List (String × Ty × String)) : Ty := .struct (fields fs)

/-- What an encoder has written after these calls, if all of them succeed. -/
def writes (e : Encoding) (m : EM Unit) : Res Unit × Bytes := ((m (Enc.new e)).1, (m (Enc.new e)).2.out)

/-- The results of some decoder calls on a new decoder, and the number of bytes left at the end. -/
def reads {α : Type} (e : Encoding) (b : Bytes) (m : DM α) : Res α × Int :=
  ((m (Dec.new b e)).1, (m (Dec.new b e)).2.remaining)

end Verif.Vectors
