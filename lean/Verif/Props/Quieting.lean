import Verif.Props.RoundTrip
/-!
# C13: what reflection does to `float32`

`Encode` and `Decode` move a `float32` through a `float64`; the direct calls do not.
-/
namespace Verif.Props
open Spec

theorem or_quiet {n : Nat} (h : n / 2 ^ 22 % 2 = 0) : n ||| 2 ^ 22 = n + 2 ^ 22 := by
  have h1 : n = 2 ^ 23 * (n / 2 ^ 23) + n % 2 ^ 22 := by omega
  have h2 : n % 2 ^ 22 < 2 ^ 22 := Nat.mod_lt _ (by decide)
  generalize n / 2 ^ 23 = a at h1
  generalize n % 2 ^ 22 = b at h1 h2
  subst h1
  have e1 : 2 ^ 22 * 1 + b = 2 ^ 22 * 1 ||| b := Nat.two_pow_add_eq_or_of_lt h2 1
  have e2 : 2 ^ 23 * a + b = 2 ^ 23 * a ||| b := Nat.two_pow_add_eq_or_of_lt (by omega) a
  have e3 : 2 ^ 23 * a + (2 ^ 22 * 1 + b) = 2 ^ 23 * a ||| (2 ^ 22 * 1 + b) := Nat.two_pow_add_eq_or_of_lt (by omega) a
  have e4 : b ||| 2 ^ 22 = 2 ^ 22 * 1 ||| b := Nat.or_comm _ _
  rw [e2, Nat.or_assoc, e4, ← e1, ← e3, ← e2]
  omega

theorem quiet_signalling {n : Nat} (h : signalling32 n) : f32ViaF64 n = n + 2 ^ 22 := by
  unfold f32ViaF64
  rw [if_pos h.1]
  exact or_quiet h.2

/-- C13: outside Borsh, marshalling and unmarshalling a `float32` sets the quiet bit of a signalling NaN. (Every other
`float32` keeps its bits: C25, C26, C28, C29.) -/
theorem C13_reflection {e : Encoding} (he : e.valid = true) (hb : e ≠ .borsh) (n : Nat) (hn : n < 2 ^ 32)
    (hs : signalling32 n) :
    marshal e .f32 (.float n) = (.ok (), fixed .le 4 (n + 2 ^ 22)) ∧
    unmarshal e .f32 (.float 0) (fixed .le 4 n) = .ok (.float (n + 2 ^ 22)) := by
  constructor
  · have hw := writeFloat32_writes e (n + 2 ^ 22) .le (fun h => hb h.1)
    unfold marshal encode
    simp only [M.bind_apply, M.get_apply, Enc.new, setCurE, M.modify_apply]
    rw [if_neg (by rintro rfl; cases he)]
    simp only [M.bind_apply, M.modify_apply, encCore, encPlain, encScalar, Option.getD_some, quiet_signalling hs]
    rw [if_neg hb]
    obtain ⟨cs, h1, h2⟩ := hw { enc := e, count := 0, cur := some .le, log := [], sink := okSink } rfl (fun _ _ => rfl)
    rw [h2, fixed_eq, ← h1]
    simp [Enc.out, Enc.push]
  · have hr := readFloat32_reads e .le n hn (fun h => hb h.1)
    unfold unmarshal decode
    simp only [M.bind_apply, M.get_apply, Dec.new]
    rw [if_neg (by rintro rfl; cases he)]
    simp only [M.bind_apply, setCurD, M.modify_apply, decCore, decPlain, decScalar]
    rw [if_neg hb]
    rw [hr _ [] rfl (by simp [Dec.Ok]) (by simp [Dec.rest, fixed_eq])]
    simp [quiet_signalling hs]

/-- A signalling NaN exists. -/
example : signalling32 0x7f800001 := ⟨by decide, by decide⟩

end Verif.Props
