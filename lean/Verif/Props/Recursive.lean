import Verif.Proofs.Recursive
import Verif.Props.RoundTrip
/-!
# Recursive types (C90)

A type that mentions itself is its unrollings `T 0`, `T 1`, …: see `Spec.Unrolls`.  As soon as one of them does not run into the
place where it is cut off, all further ones do the same; that is what the program does with the recursive type.
-/
set_option linter.unusedSimpArgs false
namespace Verif.Props
open Verif Verif.Spec

/-- `Marshal` of a value of a recursive type: an unrolling that does not run into the cut, whether it succeeds, fails or panics,
gives the result and the bytes of all further unrollings. -/
theorem C90_encode_partial {T : Nat → Ty} (hT : Unrolls T) (e : Encoding) (v : Val) (n : Nat)
    (hn : (marshal e (T n) v).1 ≠ .err .unsupported) (m : Nat) (hm : n ≤ m) : marshal e (T m) v = marshal e (T n) v := by
  induction m with
  | zero => rw [Nat.le_zero.mp hm]
  | succ m ih =>
    by_cases h : n = m + 1
    · rw [h]
    · rcases marshal_cut e (hT m) v with h1 | h1
      · rw [ih (by omega)] at h1; exact absurd h1 hn
      · rw [h1, ih (by omega)]

/-- `Unmarshal` into a new variable of a recursive type: likewise. -/
theorem C90_decode_partial {T : Nat → Ty} (hT : Unrolls T) (e : Encoding) (b : Bytes) (n : Nat)
    (hn : unmarshal e (T n) (T n).zero b ≠ .err .unsupported) (m : Nat) (hm : n ≤ m) :
    unmarshal e (T m) (T m).zero b = unmarshal e (T n) (T n).zero b := by
  induction m with
  | zero => rw [Nat.le_zero.mp hm]
  | succ m ih =>
    by_cases h : n = m + 1
    · rw [h]
    · rcases unmarshal_cut e (hT m) b with h1 | h1
      · rw [ih (by omega)] at h1; exact absurd h1 hn
      · rw [h1, ih (by omega)]

/-- A supported value of one unrolling is marshalled and read back by all further ones. -/
theorem C90_roundtrip_partial {T : Nat → Ty} (hT : Unrolls T) {e : Encoding} (he : e.valid = true) (v : Val) (n : Nat)
    (h : Supported e (T n) v) :
    ∃ b w, Same e (T n) v w ∧ ∀ m, n ≤ m → marshal e (T m) v = (.ok (), b) ∧ unmarshal e (T m) (T m).zero b = .ok w := by
  obtain ⟨b, w, h1, h2, h3⟩ := roundtrip he (T n) v h
  refine ⟨b, w, h3, fun m hm => ⟨?_, ?_⟩⟩
  · rw [C90_encode_partial hT e v n (by rw [h1]; exact fun h => by cases h) m hm, h1]
  · rw [C90_decode_partial hT e b n (by rw [h2]; exact fun h => by cases h) m hm, h2]

/-! ### linked lists -/

/-- `struct { V uint8; Next *t "optional" }` -/
def node (t : Ty) : Ty :=
  .struct (.cons { name := [86], exported := true } (.uint .w8 false)
    (.cons { name := [78], exported := true, tag := { option := true } } (.ptr t) .nil))

/-- The unrollings of `type Node struct { V uint8; Next *Node "optional" }`. -/
def nodes : Nat → Ty
  | 0 => node dead
  | n + 1 => node (nodes n)

theorem nodes_unroll : Unrolls nodes := by
  intro n
  induction n with
  | zero => exact .struct (.keep (.cons (.inr rfl) (.ptrOff (.struct _ _ _)) .nil))
  | succ n ih => exact .struct (.keep (.cons (.inr rfl) (.ptr ih) .nil))

/-- The list with the elements `x`, `xs`. -/
def linked (x : UInt8) : List UInt8 → Val
  | [] => .struct [.uint x.toNat, .ptr none]
  | y :: ys => .struct [.uint x.toNat, .ptr (some (linked y ys))]

/-- Its bytes: every element, followed by a flag saying whether there is another one. -/
def linkedBytes (e : Encoding) (x : UInt8) : List UInt8 → Bytes
  | [] => x :: flag e false
  | y :: ys => x :: flag e true ++ linkedBytes e y ys

theorem fixed1 (o : Order) (x : UInt8) : fixed o 1 x.toNat = [x] := by
  cases o <;> simp [fixed]

theorem nodes_lib (n : Nat) : (nodes n).asLib = none := by cases n <;> rfl

theorem linked_supported (e : Encoding) : ∀ (xs : List UInt8) (x : UInt8) (n : Nat), xs.length ≤ n →
    Supported e (nodes n) (linked x xs) ∧ wire e (nodes n) .le false (linked x xs) = linkedBytes e x xs ∧
    copy e (nodes n) (linked x xs) = linked x xs := by
  intro xs
  induction xs with
  | nil =>
    intro x n _
    have hx := x.toNat_lt
    have : ∃ t, nodes n = node t ∧ t.asLib = none := by
      cases n with
      | zero => exact ⟨dead, rfl, rfl⟩
      | succ n => exact ⟨nodes n, rfl, nodes_lib n⟩
    obtain ⟨t, ht, hl⟩ := this
    have ha : (Ty.ptr t).asLib = none := rfl
    rw [ht]
    refine ⟨⟨?_, ?_⟩, ?_, ?_⟩
    · simp [node, linked, Encodable, EncodableFields, Fields.isEnum, announce, absent, Ty.isZero, lookupSize, Width.bits, Width.bytes]
      omega
    · simp [node, linked, Returns, ReturnsFields, Fields.isEnum, absent, Ty.isZero, announced, ha, Ty.directLib, hl]
    · simp [node, linked, linkedBytes, wire, wireFields, Fields.isEnum, fieldWire, Ty.isZero, fixed1, Width.bytes, ord]
    · simp [node, linked, copy, copyFields, Fields.isEnum, absent, Ty.isZero, Ty.zero]
  | cons y ys ih =>
    intro x n hn
    have hx := x.toNat_lt
    match n, hn with
    | n + 1, hn =>
      obtain ⟨⟨h1, h2⟩, h3, h4⟩ := ih y n (by simpa using hn)
      have hl := nodes_lib n
      have ha : (Ty.ptr (nodes n)).asLib = none := rfl
      refine ⟨⟨?_, ?_⟩, ?_, ?_⟩
      · simp [nodes, node, linked, Encodable, EncodableFields, Fields.isEnum, announce, absent, Ty.isZero, lookupSize, Width.bits,
          Width.bytes, h1]
        omega
      · simp [nodes, node, linked, Returns, ReturnsFields, Fields.isEnum, absent, Ty.isZero, announced, h2, ha, Ty.directLib, hl]
      · simp [nodes, node, linked, linkedBytes, wire, wireFields, Fields.isEnum, fieldWire, Ty.isZero, fixed1, Width.bytes, ord, h3, hl, announced]
      · simp [nodes, node, linked, copy, copyFields, Fields.isEnum, absent, Ty.isZero, Ty.zero, h4]

/-- Linked lists, of any length. -/
theorem C90_list {e : Encoding} (he : e.valid = true) (x : UInt8) (xs : List UInt8) (n : Nat) (hn : xs.length ≤ n) :
    marshal e (nodes n) (linked x xs) = (.ok (), linkedBytes e x xs) ∧
    unmarshal e (nodes n) (nodes n).zero (linkedBytes e x xs) = .ok (linked x xs) := by
  obtain ⟨h1, h2, h3⟩ := linked_supported e xs x n hn
  refine ⟨?_, ?_⟩
  · rw [marshal_wire he _ _ h1.1, h2]
  · have := unmarshal_wire he _ _ h1 []
    rwa [List.append_nil, h2, h3] at this

example : marshal .bin (nodes 3) (linked 7 [8]) = (.ok (), [7, 1, 0, 0, 0, 8, 0, 0, 0, 0]) := (C90_list rfl 7 [8] 3 (by decide)).1
/-- The cut is noticed. -/
example : marshal .bin (nodes 1) (linked 7 [8, 9]) = (.err .unsupported, [7, 1, 0, 0, 0, 8, 1, 0, 0, 0]) := by decide +kernel
/-- Data that ends too early fails in the same way for all unrollings. -/
example (m : Nat) (hm : 2 ≤ m) : unmarshal .borsh (nodes m) (nodes m).zero [7, 1, 8, 1] = .err .notEnough := by
  have h : unmarshal .borsh (nodes 2) (nodes 2).zero [7, 1, 8, 1] = .err .notEnough := rfl
  rw [C90_decode_partial nodes_unroll .borsh [7, 1, 8, 1] 2 (by rw [h]; exact fun h => by cases h) m hm, h]

/-! ### trees -/

/-- The unrollings of `type Tree struct { V uint8; Kids []Tree }`. -/
def trees : Nat → Ty
  | 0 => .struct (.cons { name := [86], exported := true } (.uint .w8 false)
      (.cons { name := [75], exported := true } (.slice dead) .nil))
  | n + 1 => .struct (.cons { name := [86], exported := true } (.uint .w8 false)
      (.cons { name := [75], exported := true } (.slice (trees n)) .nil))

theorem trees_unroll : Unrolls trees := by
  intro n
  induction n with
  | zero => exact .struct (.keep (.cons (.inl rfl) (.sliceOff (.struct _ _ _)) .nil))
  | succ n ih => exact .struct (.keep (.cons (.inl rfl) (.slice ih) .nil))

/-- A root with two leaves. -/
example (m : Nat) (hm : 1 ≤ m) :
    marshal .compactU16 (trees m) (.struct [.uint 1, .seq (some [.struct [.uint 2, .seq none], .struct [.uint 3, .seq none]])]) =
      (.ok (), [1, 2, 2, 0, 3, 0]) := by
  have h : marshal .compactU16 (trees 1)
      (.struct [.uint 1, .seq (some [.struct [.uint 2, .seq none], .struct [.uint 3, .seq none]])]) =
      (.ok (), [1, 2, 2, 0, 3, 0]) := by decide +kernel
  rw [C90_encode_partial trees_unroll .compactU16 _ 1 (by rw [h]; exact fun h => by cases h) m hm, h]

/-! ### recursion without end -/

/-- The unrollings of `type Link struct { V uint8; Next *Link }`, without "optional". -/
def links : Nat → Ty
  | 0 => .struct (.cons { name := [86], exported := true } (.uint .w8 false)
      (.cons { name := [78], exported := true } (.ptr dead) .nil))
  | n + 1 => .struct (.cons { name := [86], exported := true } (.uint .w8 false)
      (.cons { name := [78], exported := true } (.ptr (links n)) .nil))

theorem links_unroll : Unrolls links := by
  intro n
  induction n with
  | zero => exact .struct (.keep (.cons (.inl rfl) (.ptrOff (.struct _ _ _)) .nil))
  | succ n ih => exact .struct (.keep (.cons (.inl rfl) (.ptr ih) .nil))

/-- `type Link struct { V uint8; Next *t }` -/
theorem link_nil (t : Ty) (ht : t.asLib = none) (x : UInt8) (s : Enc) (hs : s.sink = okSink) :
    encCore .borsh (.struct (.cons { name := [86], exported := true } (.uint .w8 false)
      (.cons { name := [78], exported := true } (.ptr t) .nil))) {} (.struct [.uint x.toNat, .ptr none]) s =
    (encCore .borsh t {} t.zero >>= fun _ => pure ())
      { s with count := s.count + 1, log := s.log ++ [[x]], cur := some .le } := by
  simp [encCore, encStruct, encFields, Fields.isEnum, recordSize, encFlags, fieldOpt, setCurE, encPlain, encScalar, writeByte,
    toWriter, hs, okSink, ht, lookupSize, M.bind_apply]

theorem links_zero : ∀ (n : Nat) (x : UInt8) (s : Enc), s.sink = okSink →
    ∃ s', s'.out = s.out ++ x :: List.replicate n 0 ∧
      encCore .borsh (links n) {} (.struct [.uint x.toNat, .ptr none]) s = (.err .unsupported, s') := by
  intro n
  induction n with
  | zero =>
    intro x s hs
    refine ⟨{ s with count := s.count + 1, log := s.log ++ [[x]], cur := some .le }, ?_, ?_⟩
    · simp [Enc.out]
    · show encCore .borsh (.struct _) _ _ _ = _
      rw [link_nil dead rfl x s hs]
      rfl
  | succ n ih =>
    intro x s hs
    obtain ⟨s', h1, h2⟩ := ih 0 { s with count := s.count + 1, log := s.log ++ [[x]], cur := some .le } hs
    refine ⟨s', ?_, ?_⟩
    · rw [h1]
      simp [Enc.out, List.replicate_succ]
    · show encCore .borsh (.struct _) _ _ _ = _
      rw [link_nil (links n) (by cases n <;> rfl) x s hs]
      have hz : (links n).zero = .struct [.uint (0 : UInt8).toNat, .ptr none] := by cases n <;> rfl
      rw [hz, M.bind_err h2]

/-- Borsh writes a nil pointer as the zero value of what it points to.  For a type that contains a pointer to itself this never
ends: every unrolling runs into the cut, having written one byte more. -/
theorem C90_violated (x : UInt8) (n : Nat) :
    marshal .borsh (links n) (.struct [.uint x.toNat, .ptr none]) = (.err .unsupported, x :: List.replicate n 0) := by
  obtain ⟨s', h1, h2⟩ := links_zero n x { Enc.new .borsh with cur := some .le } rfl
  have h : encode (links n) (.struct [.uint x.toNat, .ptr none]) (Enc.new .borsh) = (.err .unsupported, s') := h2
  unfold marshal
  rw [h, h1]
  rfl

/-- The unrollings of `type Loop struct { Next *Loop }`. -/
def loops : Nat → Ty
  | 0 => .struct (.cons { name := [78], exported := true } (.ptr dead) .nil)
  | n + 1 => .struct (.cons { name := [78], exported := true } (.ptr (loops n)) .nil)

theorem loops_unroll : Unrolls loops := by
  intro n
  induction n with
  | zero => exact .struct (.cons (.inl rfl) (.ptrOff (.struct _ _ _)) .nil)
  | succ n ih => exact .struct (.cons (.inl rfl) (.ptr ih) .nil)

theorem loop_dec (e : Encoding) (t : Ty) (ht : t.asLib = none) (d : Dec) :
    decCore e (.struct (.cons { name := [78], exported := true } (.ptr t) .nil)) {} (.struct [.ptr none]) d =
    (decCore e t {} t.zero >>= fun x => pure (.struct [.ptr (some x)])) { d with cur := some .le } := by
  have hd : (if e = .borsh then (Ty.ptr t).directLib else none) = none := by
    simp [Ty.directLib, ht]
  simp only [decCore, decStruct, Val.fields, Fields.isEnum, decFields, extensionEnds, hd, decField, fieldOpt, lookupSize, recordSize,
    Val.deref, M.bind_apply]
  cases h : decCore e t {} t.zero { d with cur := some .le } with
  | mk r d' =>
    cases r <;> simp [setCurD, h, M.bind_apply]

/-- Decoders allocate whatever a pointer points to.  For a struct with nothing but a pointer to itself this never ends, on any
input, even the empty one. -/
theorem C90_violated_decode {e : Encoding} (he : e.valid = true) (b : Bytes) (n : Nat) :
    unmarshal e (loops n) (loops n).zero b = .err .unsupported := by
  have core : ∀ (n : Nat) (d : Dec), ∃ d', decCore e (loops n) {} (loops n).zero d = (.err .unsupported, d') := by
    intro n
    induction n with
    | zero => intro d; cases e <;> exact ⟨_, rfl⟩
    | succ n ih =>
      intro d
      obtain ⟨d', hd⟩ := ih { d with cur := some .le }
      refine ⟨d', ?_⟩
      have := loop_dec e (loops n) (by cases n <;> rfl) d
      rw [M.bind_err hd] at this
      exact this
  have hne : e ≠ .other := by intro h; subst h; cases he
  obtain ⟨d', hd⟩ := core n { Dec.new b e with cur := some .le }
  unfold unmarshal decode
  rw [M.bind_ok (M.get_apply _), if_neg (show ¬ (Dec.new b e).enc = .other from hne)]
  exact congrArg Prod.fst hd

end Verif.Props
