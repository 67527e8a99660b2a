import Verif.Spec.Calls
import Verif.Proofs.Writes
/-! From the internal relations to the observable notions of `Spec/Calls.lean`. -/
namespace Verif

theorem Writes.emits {e : Encoding} {w : EM Unit} {bs : Bytes} (h : Writes e w bs) :
    ∀ s : Enc, s.enc = e → Spec.NoFail s → Spec.Emits w s bs := by
  intro s he hf
  obtain ⟨cs, rfl, hw⟩ := h s he hf
  exact ⟨s.push cs, hw, by simp [Enc.push], rfl, rfl, rfl, rfl⟩

theorem decAt_ok (e : Encoding) (cur) (pre post : Bytes) : (Spec.decAt e cur pre post).Ok := by
  simp [Dec.Ok, Spec.decAt]; omega
@[simp] theorem decAt_rest (e : Encoding) (cur) (pre post : Bytes) : (Spec.decAt e cur pre post).rest = post := by
  simp [Dec.rest, Spec.decAt]
theorem decAt_adv (e : Encoding) (cur) (pre bs post : Bytes) :
    (Spec.decAt e cur pre (bs ++ post)).adv bs.length = Spec.decAt e cur (pre ++ bs) post := by
  simp [Dec.adv, Spec.decAt]

theorem Reads.consumes {α : Type} {e : Encoding} {r : DM α} {bs : Bytes} {v : α} (h : Reads e r bs v) :
    Spec.Consumes e r bs v := by
  intro cur pre post
  rw [h (Spec.decAt e cur pre (bs ++ post)) post rfl (decAt_ok _ _ _ _) (by simp), decAt_adv]

theorem roundTrip_mk {α : Type} {e : Encoding} {w : EM Unit} {r : DM α} {bs : Bytes} {v : α} {n : Nat}
    (hw : Writes e w bs) (hr : Reads e r bs v) (hn : bs.length = n) : Spec.RoundTrip e w r n v :=
  ⟨bs, hn, hw.emits, hr.consumes⟩

theorem inside_iff (d : Dec) : Spec.Inside d ↔ d.Ok := Iff.rfl
theorem left_eq {d : Dec} (h : d.Ok) : Spec.left d = d.rest.length := by
  have := d.rest_length h; simp only [Dec.remaining] at this; simp only [Spec.left]; omega

end Verif
