import Verif.Proofs.HeapEncode
import Verif.Props.Heap
import Verif.Props.Recursive
/-!
# C109: Encode sees values, not memory; Encode followed by Decode is a deep copy
-/
namespace Verif.Props
open Spec OnHeap

/-- What `Encode` writes is determined by the value that the variable shows: the outcome, the bytes and the `Write` calls are those
for the value, whether or not parts of it are shared. -/
theorem C109_value (t : Ty) (h : Heap) (x : HVal) (v : Val) (hx : Shows h x v) : encodeH h t x = encode t v :=
  shows_encode t hx

/-- Two variables that show the same value are written in the same way, wherever their parts are stored. -/
theorem C109_sharing (t : Ty) (h h' : Heap) (x x' : HVal) (v : Val) (hx : Shows h x v) (hx' : Shows h' x' v) :
    encodeH h t x = encodeH h' t x' := by
  rw [shows_encode t hx, shows_encode t hx']

/-- A value encoded from memory with any sharing, and decoded into a new variable (at `h.next`), is a deep copy: the new variable shows
the value read back, it consists of new memory only, no two of its pointers lead to the same variable, and all that was in
memory is unchanged. -/
theorem C109_copy {e : Encoding} (he : e.valid = true) (t : Ty) (h : Heap) (x : HVal) (v : Val) (hx : Shows h x v)
    (hs : Supported e t v) :
    ∃ b w h' S, ((encodeH h t x (Enc.new e)).1, (encodeH h t x (Enc.new e)).2.out) = (.ok (), b) ∧
      (decodeAt t h.next ⟨Dec.new b e, h.alloc (.one t.zeroH)⟩).1 = .ok () ∧
      (decodeAt t h.next ⟨Dec.new b e, h.alloc (.one t.zeroH)⟩).2.heap = h' ∧
      Tree h' (.ptr (some h.next)) (.ptr (some w)) S ∧ (∀ a ∈ S, h.next ≤ a) ∧ Same e t v w ∧
      ∀ a, a < h.next → h'.cell a = h.cell a := by
  obtain ⟨b, w, h1, h2, h3⟩ := roundtrip he t v hs
  have ht : Tree (h.alloc (.one t.zeroH)) (.ptr (some h.next)) (.ptr (some t.zero)) [h.next] :=
    .ptr (by simp [Heap.alloc]) (tree_zero t) (by simp)
  have hu : Used (h.alloc (.one t.zeroH)) [h.next] := by simp [Used, Heap.alloc]
  obtain ⟨_, h5, h6⟩ := C105_unshared t h.next t.zero [h.next] (Dec.new b e) (h.alloc (.one t.zeroH)) ht hu
  unfold unmarshal at h2
  rw [h2] at h6
  obtain ⟨h6, S, h7, _, h9⟩ := h6
  refine ⟨b, w, _, S, ?_, h6, rfl, h7, ?_, h3, ?_⟩
  · rw [shows_encode t hx]
    exact h1
  · intro a ha
    rcases h9 a ha with h | h
    · simp only [List.mem_singleton] at h
      omega
    · simp only [Heap.alloc] at h
      omega
  · intro a ha
    rw [h5 a (by simp only [Heap.alloc]; omega) (by simp only [List.mem_singleton]; omega)]
    simp only [Heap.alloc]
    rw [if_neg (by omega)]

/-- Later changes to the original do not reach the copy: it shows its value as long as its own memory stays the same. -/
theorem C109_independent {h' : Heap} {n a : Nat} {w : Val} {S : List Nat} (ht : Tree h' (.ptr (some a)) (.ptr (some w)) S)
    (hS : ∀ b ∈ S, n ≤ b) (h2 : Heap) (hc : ∀ b, n ≤ b → h2.cell b = h'.cell b) :
    Shows h2 (.ptr (some a)) (.ptr (some w)) :=
  tree_shows (tree_frame ht fun b hb => hc b (hS b hb))

/-! ### A variable that contains a pointer to itself

`type Node struct { V uint8; Next *Node "optional" }` and a node that is its own `Next`. -/

/-- The content of the node. -/
def ringNode : HVal := .struct [.leaf (.uint 7), .ptr (some 0)]

/-- The memory. -/
def ring : Heap := HeapExample.heapOf [.one ringNode]

/-- It shows no value: followed through memory it never ends. -/
theorem C109_cycle_endless (v : Val) : ¬ Shows ring ringNode v := by
  have key : ∀ (n : Nat) (v : Val), sizeOf v ≤ n → ¬ Shows ring ringNode v := by
    intro n
    induction n with
    | zero => intro v hv; cases v <;> simp at hv
    | succ n ih =>
      intro v hv hs
      cases hs with
      | struct hs =>
        cases hs with
        | cons _ hs =>
          cases hs with
          | cons hp hs =>
            cases hs
            cases hp with
            | ptr hc hx =>
              have : ring.cell 0 = .one ringNode := rfl
              rw [this] at hc
              cases hc
              refine ih _ ?_ hx
              simp at hv
              omega
  exact key _ v (Nat.le_refl _)

theorem ring_encH {e : Encoding} (he : e.valid = true) : ∀ (n : Nat) (o : Opt) (s : Enc), s.sink = okSink →
    ∃ s', encH ring e (nodes n) o ringNode s = (.err .unsupported, s') ∧ s.out.length + n ≤ s'.out.length := by
  have hv : ring.var 0 = ringNode := rfl
  have hok : ∀ l b, okSink l b = true := fun _ _ => rfl
  intro n
  induction n with
  | zero =>
    intro o s hs
    cases e <;> first | exact absurd he (by decide) | skip
    all_goals
      simp [nodes, node, dead, ringNode, encH, encFieldsH, encStruct, Fields.isEnum, HVal.plain, recordSize, setCurE,
        M.bind_apply, M.modify, encFlags, fieldOpt, Ty.isZero, encPlain, encScalar, writeByte, toWriter, hs, hok,
        writeFlag, writeUint32, writeBool, writeOption, hv, Ty.asLib, M.err, Enc.out]
  | succ n ih =>
    intro o s hs
    have hl := nodes_lib n
    cases e <;> first | exact absurd he (by decide) | skip
    · obtain ⟨s', h1, h2⟩ := ih { optional := true }
        ⟨s.enc, s.count + 1 + 4, some .le, s.log ++ [[7], putUint .le 4 1], okSink⟩ rfl
      simp only [ringNode] at h1
      refine ⟨s', ?_, ?_⟩
      · simp [nodes, node, ringNode, encH, encFieldsH, encStruct, Fields.isEnum, HVal.plain, recordSize, setCurE,
          M.bind_apply, M.modify, encFlags, fieldOpt, lookupSize, Ty.isZero, encPlain, encScalar, writeByte, toWriter, hs, hok,
          writeFlag, writeUint32, hv, hl, h1]
      · simp [Enc.out] at h2 ⊢
        omega
    · obtain ⟨s', h1, h2⟩ := ih { optional := true }
        ⟨s.enc, s.count + 1 + 1, some .le, s.log ++ [[7], [1]], okSink⟩ rfl
      simp only [ringNode] at h1
      refine ⟨s', ?_, ?_⟩
      · simp [nodes, node, ringNode, encH, encFieldsH, encStruct, Fields.isEnum, HVal.plain, recordSize, setCurE,
          M.bind_apply, M.modify, encFlags, fieldOpt, lookupSize, Ty.isZero, encPlain, encScalar, writeByte, toWriter, hs, hok,
          writeFlag, writeBool, hv, hl, h1]
      · simp [Enc.out] at h2 ⊢
        omega
    · obtain ⟨s', h1, h2⟩ := ih {}
        ⟨s.enc, s.count + 1 + 1, some .le, s.log ++ [[7], [1]], okSink⟩ rfl
      simp only [ringNode] at h1
      refine ⟨s', ?_, ?_⟩
      · simp [nodes, node, ringNode, encH, encFieldsH, encStruct, Fields.isEnum, HVal.plain, recordSize, setCurE,
          M.bind_apply, M.modify, encFlags, fieldOpt, Ty.isZero, encPlain, encScalar, writeByte, toWriter, hs, hok,
          writeFlag, writeBool, writeOption, hv, hl, h1]
      · simp [Enc.out] at h2 ⊢
        omega

/-- `Encode` of a variable that contains a pointer to itself does not come to an end: however deep the type is unrolled, it runs into
the end of the unrolling and has written at least that many bytes by then.  (In Go the recursion goes on until the stack is
used up, which cannot be recovered from; `Unrolls` in C90 explains unrolled types.) -/
theorem C109_cycle {e : Encoding} (he : e.valid = true) (n : Nat) : ∃ s, encodeH ring (nodes n) ringNode (Enc.new e) =
    (.err .unsupported, s) ∧ n ≤ s.out.length := by
  obtain ⟨s, h1, h2⟩ := ring_encH he n {} { Enc.new e with cur := some .le } rfl
  refine ⟨s, ?_, by omega⟩
  have : e ≠ .other := by rintro rfl; exact absurd he (by decide)
  simp only [encodeH, M.bind_apply, M.get_apply, Enc.new, this, if_false, setCurE, M.modify]
  exact h1

/-! ### Examples -/

namespace HeapExample

/-- What `shared` shows. -/
theorem shared_shows : Shows shared (.struct [.ptr (some 1), .ptr (some 1)])
    (.struct [.ptr (some (.uint 9)), .ptr (some (.uint 9))]) :=
  .struct (.cons (.ptr rfl (.leaf trivial)) (.cons (.ptr rfl (.leaf trivial)) .nil))

/-- A slice with two pointers to the same variable, whose map has an entry for it too. -/
def tangled : Heap := heapOf [.one (.leaf (.uint 9)), .many [.ptr (some 0), .ptr (some 0)],
  .table [(.leaf (.uint 4), .seq (some 1)), (.leaf (.uint 3), .seq (some 1))]]

end HeapExample
open HeapExample

/-- The shared variable is written twice. -/
example : (encodeH shared pairTy (.struct [.ptr (some 1), .ptr (some 1)]) (Enc.new .bin)).2.out = [9, 9] := by rfl

/-- … and the copy has two variables: sharing is lost. -/
theorem C109_sharing_lost : let h := shared.alloc (.one pairTy.zeroH)
    (decodeAt pairTy 2 ⟨Dec.new [9, 9] .bin, h⟩).1 = .ok () ∧
    (decodeAt pairTy 2 ⟨Dec.new [9, 9] .bin, h⟩).2.heap.cell 2 = .one (.struct [.ptr (some 3), .ptr (some 4)]) ∧
    (decodeAt pairTy 2 ⟨Dec.new [9, 9] .bin, h⟩).2.heap.cell 3 = .one (.leaf (.uint 9)) ∧
    (decodeAt pairTy 2 ⟨Dec.new [9, 9] .bin, h⟩).2.heap.cell 4 = .one (.leaf (.uint 9)) := by
  refine ⟨by rfl, by rfl, by rfl, by rfl⟩

/-- The conditions of `C109_copy` hold there. -/
example : Supported .bin pairTy (.struct [.ptr (some (.uint 9)), .ptr (some (.uint 9))]) := by
  constructor
  · simp [pairTy, Encodable, EncodableFields, Fields.isEnum, announce, absent, Width.bits, Width.bytes]
  · simp [pairTy, Returns, ReturnsFields, Fields.isEnum, absent, announced, Ty.asLib, Ty.directLib]

/-- Slices and maps that share: Borsh sorts the entries of the map, and writes the slice once per entry. -/
example : encodeH tangled (.map (.uint .w8 false) (.slice (.ptr (.uint .w8 false)))) (.map (some 2)) (Enc.new .borsh) =
    encode (.map (.uint .w8 false) (.slice (.ptr (.uint .w8 false))))
      (.map (some [(.uint 4, .seq (some [.ptr (some (.uint 9)), .ptr (some (.uint 9))])),
        (.uint 3, .seq (some [.ptr (some (.uint 9)), .ptr (some (.uint 9))]))])) (Enc.new .borsh) := by
  have h9 : Shows tangled (.ptr (some 0)) (.ptr (some (.uint 9))) := .ptr rfl (.leaf trivial)
  have hs : Shows tangled (.seq (some 1)) (.seq (some [.ptr (some (.uint 9)), .ptr (some (.uint 9))])) :=
    .seq rfl (.cons h9 (.cons h9 .nil))
  rw [C109_value _ tangled _ _ (.map rfl (.cons (.leaf (v := .uint 4) trivial) hs (.cons (.leaf (v := .uint 3) trivial) hs .nil)))]

example : (encodeH tangled (.map (.uint .w8 false) (.slice (.ptr (.uint .w8 false)))) (.map (some 2)) (Enc.new .borsh)).2.out =
    [2, 0, 0, 0, 3, 2, 0, 0, 0, 9, 9, 4, 2, 0, 0, 0, 9, 9] := by decide +kernel

/-- The ring at depth 2. -/
example : (encodeH ring (nodes 2) ringNode (Enc.new .borsh)).2.out = [7, 1, 7, 1, 7, 1] := by rfl

end Verif.Props
