import Verif.Model.Writer
import Verif.Props.Encode
/-!
# C100: writers that take part of a chunk
-/
namespace Verif.Props
open Spec

/-- The contract of `io.Writer`: a short write has an error. -/
def Honest (w : Writer) : Prop := ∀ h c, (w h c).2 = true → c.length ≤ (w h c).1

/-- Calls on a new encoder up to the first one that fails. -/
def session (e : Encoding) (k : Sink) (calls : List ECall) : Res Unit × Enc := forEachM ECall.run calls (Enc.new e k)

theorem session_one (e : Encoding) (k : Sink) (c : ECall) : session e k [c] = c.run (Enc.new e k) := by
  unfold session
  simp only [forEachM, M.bind_apply]
  rcases c.run (Enc.new e k) with ⟨_ | _ | _, s⟩ <;> rfl

private theorem snocInd {P : List Bytes → Prop} (h0 : P []) (hs : ∀ l b, P l → P (l ++ [b])) (l : List Bytes) : P l := by
  rw [← l.reverse_reverse]
  induction l.reverse with
  | nil => exact h0
  | cons b l ih => rw [List.reverse_cons]; exact hs _ _ ih

theorem received_nil (w : Writer) : w.received [] = [] := rfl

theorem received_snoc (w : Writer) (log : List Bytes) (b : Bytes) :
    w.received (log ++ [b]) = w.received log ++ b.take (w log b).1 := by
  have h : ∀ i ∈ List.range log.length, ((log ++ [b]).getD i []).take (w ((log ++ [b]).take i) ((log ++ [b]).getD i [])).1 =
      (log.getD i []).take (w (log.take i) (log.getD i [])).1 := by
    intro i hi
    have hi : i < log.length := List.mem_range.mp hi
    rw [List.take_append_of_le_length (by omega)]
    simp [List.getD_eq_getElem?_getD, List.getElem?_append_left hi]
  unfold Writer.received
  rw [List.length_append, List.length_singleton, List.range_succ, List.map_append, List.map_congr_left h]
  simp

theorem received_length (w : Writer) (log : List Bytes) : (w.received log).length ≤ (log.map List.length).sum := by
  induction log using snocInd with
  | h0 => simp [received_nil]
  | hs log b ih =>
    rw [received_snoc]
    simp only [List.length_append, List.length_take, List.map_append, List.map_cons, List.map_nil, List.sum_append, List.sum_cons,
      List.sum_nil]
    omega

theorem received_accepted {w : Writer} (hw : Honest w) (log : List Bytes) (h : Accepts w.sink [] log) : w.received log = log.flatten := by
  induction log using snocInd with
  | h0 => rfl
  | hs log b ih =>
    rw [accepts_append] at h
    obtain ⟨h1, h2, _⟩ := h
    rw [received_snoc, ih h1]
    have := hw _ _ h2
    simp only [List.nil_append] at this
    rw [List.take_of_length_le this]
    simp

/-- What there is to know about a session on a writer. -/
theorem session_cases (e : Encoding) (w : Writer) (calls : List ECall) :
    (session e w.sink calls).2.written = ((session e w.sink calls).2.log.map List.length).sum ∧
    ((Accepts w.sink [] (session e okSink calls).2.log ∧ (session e w.sink calls).1 = (session e okSink calls).1 ∧
        (session e w.sink calls).2.log = (session e okSink calls).2.log) ∨
      ∃ pre b post, (session e okSink calls).2.log = pre ++ b :: post ∧ Accepts w.sink [] pre ∧ (w pre b).2 = false ∧
        (session e w.sink calls).1 = .err .write ∧ (session e w.sink calls).2.log = pre ++ [b]) := by
  obtain ⟨r, cs, c, h1, h2⟩ := Sim.forEach (fun c => ecall_sim c) calls (Enc.new e w.sink)
  have hgood : session e okSink calls = (r, (Enc.new e).left cs c) := h1
  have hcount : ∀ (x : List Bytes) (k : Option Order), ((Enc.new e w.sink).left x k).written =
      (((Enc.new e w.sink).left x k).log.map List.length).sum := by
    intro x k
    simp [Enc.left, Enc.push, Enc.written, Enc.new, List.length_flatten]
  rw [hgood]
  rcases h2 with ⟨ha, hw⟩ | ⟨pre, b, post, c', hcs, ha, hb, hw⟩
  · have hbad : session e w.sink calls = (r, (Enc.new e w.sink).left cs c) := hw
    rw [hbad]
    exact ⟨hcount _ _, Or.inl ⟨by simpa [Enc.new] using ha, rfl, by simp [Enc.new]⟩⟩
  · have hbad : session e w.sink calls = (.err .write, (Enc.new e w.sink).left (pre ++ [b]) c') := hw
    rw [hbad]
    refine ⟨hcount _ _, Or.inr ⟨pre, b, post, by simp [Enc.new, hcs], by simpa [Enc.new] using ha, by simpa [Enc.new, Writer.sink] using hb, rfl,
      by simp [Enc.new]⟩⟩

/-- Whatever the writer takes of each chunk, and wherever it fails: it has received a beginning of the complete output. -/
theorem C100_prefix (e : Encoding) (w : Writer) (hw : Honest w) (calls : List ECall) :
    w.received (session e w.sink calls).2.log <+: (session e okSink calls).2.out := by
  rcases (session_cases e w calls).2 with ⟨ha, _, hl⟩ | ⟨pre, b, post, hg, ha, _, _, hl⟩
  · rw [hl, received_accepted hw _ ha]; exact List.prefix_refl _
  · rw [hl, received_snoc, received_accepted hw _ ha, Enc.out, hg]
    simp only [List.flatten_append, List.flatten_cons]
    exact List.prefix_append_right_inj _ |>.mpr ((List.take_prefix _ _).trans (List.prefix_append _ _))

/-- Unless the writer has failed, it has received everything that was written, and `Written` is the number of these bytes. -/
theorem C100_complete (e : Encoding) (w : Writer) (hw : Honest w) (calls : List ECall) (h : (session e w.sink calls).1 ≠ .err .write) :
    (session e w.sink calls).1 = (session e okSink calls).1 ∧
    w.received (session e w.sink calls).2.log = (session e okSink calls).2.out ∧
    (session e w.sink calls).2.written = (w.received (session e w.sink calls).2.log).length := by
  obtain ⟨hc, ⟨ha, hr, hl⟩ | ⟨pre, b, post, _, _, _, hr, _⟩⟩ := session_cases e w calls
  · have : w.received (session e w.sink calls).2.log = (session e okSink calls).2.out := by
      rw [hl, received_accepted hw _ ha]; rfl
    refine ⟨hr, this, ?_⟩
    rw [hc, this, hl, Enc.out, List.length_flatten]
  · exact absurd hr h

/-- In particular for `Encode`: nil means that the writer has the bytes that `Marshal` returns. -/
theorem C100_encode (e : Encoding) (w : Writer) (hw : Honest w) (t : Ty) (v : Val) :
    w.received (encode t v (Enc.new e w.sink)).2.log <+: (marshal e t v).2 ∧
    ((encode t v (Enc.new e w.sink)).1 = .ok () →
      (marshal e t v).1 = .ok () ∧ w.received (encode t v (Enc.new e w.sink)).2.log = (marshal e t v).2 ∧
      (encode t v (Enc.new e w.sink)).2.written = (marshal e t v).2.length) := by
  have h1 := C100_prefix e w hw [.encode t v]
  have h2 := C100_complete e w hw [.encode t v]
  simp only [session_one] at h1 h2
  refine ⟨h1, fun h => ?_⟩
  obtain ⟨h3, h4, h5⟩ := h2 (by rw [show (ECall.encode t v).run = Verif.encode t v from rfl, h]; simp)
  have h6 : (encode t v (Enc.new e w.sink)).1 = (marshal e t v).1 := h3
  refine ⟨h6 ▸ h, h4, ?_⟩
  have h5 : (encode t v (Enc.new e w.sink)).2.written = (w.received (encode t v (Enc.new e w.sink)).2.log).length := h5
  rw [h5]
  exact congrArg List.length h4

/-- What `Written` says when the writer has failed: the part of the last chunk that was not taken is counted too. -/
theorem C100_failed (e : Encoding) (w : Writer) (hw : Honest w) (calls : List ECall)
    (h : ¬ Accepted w.sink (session e okSink calls).2.log) :
    (session e w.sink calls).1 = .err .write ∧
    ∃ pre b post, (session e okSink calls).2.log = pre ++ b :: post ∧
      w.received (session e w.sink calls).2.log = pre.flatten ++ b.take (w pre b).1 ∧
      (session e w.sink calls).2.written = pre.flatten.length + b.length := by
  obtain ⟨hc, ⟨ha, _, _⟩ | ⟨pre, b, post, hg, ha, _, hr, hl⟩⟩ := session_cases e w calls
  · exact absurd ((accepted_iff _ _).mp ha) h
  · refine ⟨hr, pre, b, post, hg, ?_, ?_⟩
    · rw [hl, received_snoc, received_accepted hw _ ha]
    · rw [hc, hl]
      simp [List.length_flatten]

/-- `Written` is never less than what was received, also when calls are made after a failure and for every writer. -/
theorem C100_written (e : Encoding) (w : Writer) (calls : List ECall) :
    (w.received (encAfter calls (Enc.new e w.sink)).log).length ≤ (encAfter calls (Enc.new e w.sink)).written := by
  rw [(C21_written e w.sink calls).1]
  exact received_length _ _

/-- `Write` passes on the number and the error of the writer, and is otherwise the call of the other properties. -/
theorem C100_write (w : Writer) (b : Bytes) (s : Enc) (hs : s.sink = w.sink) :
    (encWriteN w b s).1 = w s.log b ∧ (encWriteN w b s).2 = (encWrite b s).2 ∧
    (encWrite b s).1 = (if (encWriteN w b s).1.2 then .ok () else .err .write) := by
  refine ⟨rfl, ?_, ?_⟩ <;> unfold encWrite toWriter encWriteN <;> simp only [hs, Writer.sink] <;> split <;> rfl

/-- A file system with room for three bytes. -/
def smallDisk : Writer := fun h c => (3 - (h.flatten).length, decide ((h.flatten).length + c.length ≤ 3))

theorem smallDisk_honest : Honest smallDisk := by
  intro h c hc
  simp only [smallDisk, decide_eq_true_eq] at hc ⊢
  omega

/-- After the failure `Written` is 4, but three bytes were received. -/
theorem C100_violated :
    let r := encode (.struct (.cons { name := [65] } (.uint .w16 false) (.cons { name := [66] } (.uint .w16 false) .nil)))
      (.struct [.uint 1, .uint 2]) (Enc.new .bin smallDisk.sink)
    r.1 = .err .write ∧ r.2.written = 4 ∧ smallDisk.received r.2.log = [1, 0, 2] := by
  decide +kernel

/-- The complete output of the same call, of which this is the beginning. -/
example : (marshal .bin (.struct (.cons { name := [65] } (.uint .w16 false) (.cons { name := [66] } (.uint .w16 false) .nil)))
    (.struct [.uint 1, .uint 2])).2 = [1, 0, 2, 0] := by decide +kernel

/-- Something that fits. -/
example : (encode (.slice (.uint .w8 false)) (.seq (some [.uint 1, .uint 2])) (Enc.new .bin smallDisk.sink)).1 = .ok () ∧
    smallDisk.received (encode (.slice (.uint .w8 false)) (.seq (some [.uint 1, .uint 2])) (Enc.new .bin smallDisk.sink)).2.log = [2, 1, 2] := by
  decide +kernel

/-- The contract is needed: the encoder does not notice a writer that takes one byte of each chunk without an error. -/
theorem C100_contract_needed :
    let w : Writer := fun _ _ => (1, true)
    let r := encode (.struct (.cons { name := [65] } (.uint .w16 false) (.cons { name := [66] } (.uint .w16 false) .nil)))
      (.struct [.uint 1, .uint 2]) (Enc.new .bin w.sink)
    r.1 = .ok () ∧ r.2.written = 4 ∧ w.received r.2.log = [1, 2] := by
  decide +kernel

end Verif.Props
