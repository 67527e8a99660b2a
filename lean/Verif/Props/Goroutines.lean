import Verif.Props.Trace
import Verif.Proofs.Goroutines
/-!
# C107: encoders in different goroutines
-/
namespace Verif.Props
open Spec

/-- C107 without tracing: `Encode` does nothing to `zlog`, so nothing that another goroutine could notice. -/
theorem C107_off (t : Ty) (v : Val) (s : Enc) (evs : List LogEvent) :
    encodeL false t v ⟨s, evs⟩ = ((encode t v s).1, ⟨(encode t v s).2, evs⟩) := by
  obtain ⟨r, s', w, _, h2, h3, h4⟩ := Logs.encode false t v s
  have h5 := h3 []
  rw [C99_off] at h5
  simp only [Prod.mk.injEq, Traced.mk.injEq, and_true] at h5
  rw [h4, h2 rfl, List.append_nil, ← h5.1, ← h5.2]

/-- C107 with tracing: the result, the bytes and the state of the encoder are those of a traced encoder that runs alone, whatever is in `zlog`; what
it does to `zlog` is balanced. -/
theorem C107_result (tr : Bool) (t : Ty) (v : Val) (s : Enc) (ns : List LogName) (evs : List LogEvent) :
    (encodeL tr t v ⟨s, evs⟩).1 = (encodeTr tr t v ⟨s, ns⟩).1 ∧ (encodeL tr t v ⟨s, evs⟩).2.enc = (encodeTr tr t v ⟨s, ns⟩).2.enc ∧
    ∃ w, Balanced w ∧ (encodeL tr t v ⟨s, evs⟩).2.events = evs ++ w := by
  obtain ⟨r, s', w, h1, _, h3, h4⟩ := Logs.encode tr t v s
  rw [h3, h4]
  exact ⟨rfl, rfl, w, h1, rfl⟩

/-- The goroutines of some calls of `Encode`. -/
def goroutines (tr : Bool) (calls : List (Ty × Val × Enc)) : List Goroutine := calls.map fun c => encodeGo tr c.1 c.2.1 c.2.2

private theorem go_new (tr : Bool) (t : Ty) (v : Val) (s : Enc) : ∃ w, Balanced w ∧ encodeGo tr t v s = Goroutine.new w := by
  obtain ⟨_, _, w, h1, h2⟩ := C107_result tr t v s [] []
  exact ⟨w, h1, by rw [encodeGo, h2]; rfl⟩

private theorem goroutines_new (tr : Bool) (calls : List (Ty × Val × Enc)) :
    ∀ g ∈ goroutines tr calls, ∃ w, Balanced w ∧ g = Goroutine.new w := by
  intro g hg
  obtain ⟨c, _, rfl⟩ := List.mem_map.mp hg
  exact go_new ..

/-- C107 for any schedule of any number of calls: at every moment the name of the package logger starts with the name it had. -/
theorem C107_prefix (tr : Bool) (calls : List (Ty × Val × Enc)) (sched : List Nat) (ns : List LogName) :
    ns <+: (runSchedule sched (goroutines tr calls) ns).2 :=
  holds_run sched _ ns (fun g hg => by
    obtain ⟨w, _, rfl⟩ := goroutines_new tr calls g hg
    exact holds_new ns w) (List.prefix_refl _)

/-- C107 for calls that do not overlap, in any order: the logger has its name back.  Missing: calls that do overlap, see `C107_violated`. -/
theorem C107_turns_partial (tr : Bool) (calls : List (Ty × Val × Enc)) (is : List Nat) (ns : List LogName) :
    (runSchedule (inTurns (goroutines tr calls) is) (goroutines tr calls) ns).2 = ns :=
  run_turns (goroutines_new tr calls) is _ ns (fun _ g h => ⟨g, h, Or.inl rfl⟩) fun _ h => h

private theorem run_todo_nil : ∀ (sched : List Nat) (gs : List Goroutine) (z : List LogName), (∀ g ∈ gs, g.todo = []) →
    runSchedule sched gs z = (gs, z)
  | [], _, _, _ => rfl
  | i :: sched, gs, z, h => by
    unfold runSchedule
    cases hi : gs[i]? with
    | none => exact run_todo_nil sched gs z h
    | some g =>
      have hg : g.step z = (g, z) := by unfold Goroutine.step; rw [h g (List.mem_of_getElem? hi)]
      have hs : gs.set i g = gs := by
        apply List.ext_getElem?
        intro j
        rw [List.getElem?_set]
        by_cases hj : i = j
        · subst hj
          rw [if_pos rfl, if_pos (List.getElem?_eq_some_iff.mp hi).1, hi]
        · rw [if_neg hj]
      simp only [hg, hs]
      exact run_todo_nil sched gs z h

/-- C107 for any schedule without tracing: nobody assigns to `zlog`. -/
theorem C107_off_schedule (calls : List (Ty × Val × Enc)) (sched : List Nat) (ns : List LogName) :
    runSchedule sched (goroutines false calls) ns = (goroutines false calls, ns) := by
  apply run_todo_nil
  intro g hg
  obtain ⟨c, _, rfl⟩ := List.mem_map.mp hg
  simp [encodeGo, C107_off, Goroutine.new]

/-! ### calls that overlap -/

/-- `[]byte{1}` in Borsh: it renames the logger once. -/
private theorem one_event : encodeGo true (.slice (.uint .w8 false)) (.seq (some [.uint 1])) (Enc.new .borsh) =
    ⟨[.loadPrev, .loadCur, .store .slice, .restore], [], []⟩ := by decide +kernel

/-- Two calls `Encode([]byte{1})`. -/
def twoCalls : List (Ty × Val × Enc) := List.replicate 2 (.slice (.uint .w8 false), .seq (some [.uint 1]), Enc.new .borsh)

/-- The first begins, the second begins, the first ends, the second ends. -/
def overlap : List Nat := [0, 0, 0, 1, 1, 1, 0, 1]

private theorem overlap_run (ns : List LogName) :
    ((runSchedule overlap (goroutines true twoCalls) ns).1.all fun g => g.todo.isEmpty) = true ∧
    (runSchedule overlap (goroutines true twoCalls) ns).2 = ns ++ [.slice] := by
  have h : goroutines true twoCalls = [⟨[.loadPrev, .loadCur, .store .slice, .restore], [], []⟩,
      ⟨[.loadPrev, .loadCur, .store .slice, .restore], [], []⟩] := by
    show [encodeGo _ _ _ _, encodeGo _ _ _ _] = _
    rw [one_event]
  rw [h]
  simp [overlap, runSchedule, Goroutine.step]

/-- C107 is false with tracing: two calls of `Encode` on two encoders in two goroutines are both done, and the package logger has another name than
before. -/
theorem C107_violated : ∃ sched, ((runSchedule sched (goroutines true twoCalls) []).1.all fun g => g.todo.isEmpty) = true ∧
    (runSchedule sched (goroutines true twoCalls) []).2 = [.slice] := ⟨overlap, overlap_run []⟩

/-- `k` times two calls that overlap. -/
def rounds : Nat → List LogName → List LogName
  | 0, ns => ns
  | k + 1, ns => rounds k (runSchedule overlap (goroutines true twoCalls) ns).2

/-- The name grows without bound: by one part in each round of two calls that overlap. -/
theorem C107_grows (k : Nat) (ns : List LogName) : rounds k ns = ns ++ List.replicate k .slice := by
  induction k generalizing ns with
  | zero => simp [rounds]
  | succ k ih =>
    rw [rounds, (overlap_run ns).2, ih, List.append_assoc, List.replicate_succ]
    rfl

/-- Results and bytes are right all the same. -/
example : (encodeL true (.slice (.uint .w8 false)) (.seq (some [.uint 1])) ⟨Enc.new .borsh, []⟩).1 = .ok () ∧
    (encodeL true (.slice (.uint .w8 false)) (.seq (some [.uint 1])) ⟨Enc.new .borsh, []⟩).2.enc.out = [1, 0, 0, 0, 1] ∧
    (encodeL true (.slice (.uint .w8 false)) (.seq (some [.uint 1])) ⟨Enc.new .borsh, []⟩).2.events = [.enter .slice, .leave] := by
  refine ⟨?_, ?_, ?_⟩ <;> decide +kernel

/-- An array of slices: three renamings, one inside the other. -/
example : (encodeL true (.array 2 (.slice (.uint .w8 false))) (.arr [.seq none, .seq (some [])]) ⟨Enc.new .bin, []⟩).2.events =
    [.enter .array, .enter .slice, .leave, .enter .slice, .leave, .leave] := by decide +kernel

/-- A map in Bin panics under tracing before the logger is renamed; inside a slice the deferred function still runs. -/
example : (encodeL true (.slice (.map .str .bool)) (.seq (some [.map none])) ⟨Enc.new .bin, []⟩).1 = .panic ∧
    (encodeL true (.slice (.map .str .bool)) (.seq (some [.map none])) ⟨Enc.new .bin, []⟩).2.events = [.enter .slice, .leave] := by
  refine ⟨?_, ?_⟩ <;> decide +kernel

/-- Calls in turns: the schedule is not empty, and everything gets done. -/
example : inTurns (goroutines true twoCalls) [1, 0] = [1, 1, 1, 1, 0, 0, 0, 0] ∧
    ((runSchedule [1, 1, 1, 1, 0, 0, 0, 0] (goroutines true twoCalls) []).1.all fun g => g.todo.isEmpty) = true := by
  decide +kernel

end Verif.Props
