import Verif.Spec.Rust
import Verif.Proofs.Layout
import Verif.Spec.Copy
import Verif.Proofs.Sort
import Verif.Proofs.KeyEq
/-! The Go encoding of the Go counterpart of a Rust value is the Borsh encoding of the Rust value. -/
set_option linter.unusedSimpArgs false
namespace Verif
open Spec

theorem leBytes_eq : ∀ k n, leBytes k n = putLE k n
  | 0, _ => rfl
  | k + 1, n => by
    rw [leBytes, putLE, leBytes_eq k]
    congr 1
    rw [← UInt8.toNat_inj]; simp

theorem fixed_leBytes (k n : Nat) : fixed .le k n = leBytes k n := by rw [fixed_eq, leBytes_eq]; rfl

@[simp] theorem leBytes_length (k n : Nat) : (leBytes k n).length = k := by rw [← fixed_leBytes]; simp

theorem unsigned_twos {b : Nat} {z : Int} (hb : 0 < b) (h : -2 ^ (b - 1) ≤ z ∧ z < 2 ^ (b - 1)) : twos b z = unsigned b z := by
  obtain ⟨c, rfl⟩ : ∃ c, b = c + 1 := ⟨b - 1, by omega⟩
  simp only [Nat.add_sub_cancel] at h
  have h2 : (2 : Int) ^ (c + 1) = 2 * 2 ^ c := by rw [Int.pow_succ]; omega
  unfold twos unsigned
  have hp : (0 : Int) < 2 ^ c := Int.pow_pos (by decide)
  split
  · congr 1
    rw [h2, ← Int.add_emod_right, Int.emod_eq_of_lt] <;> omega
  · congr 1
    rw [h2, Int.emod_eq_of_lt] <;> omega

theorem unsigned_lt {z : Int} (h : -2 ^ 127 ≤ z ∧ z < 2 ^ 127) : unsigned 128 z < 2 ^ 128 := by
  unfold unsigned; split <;> omega

theorem fixed_halves (n : Nat) : fixed .le 16 (n / 2 ^ 64 * 2 ^ 64 + n % 2 ^ 64) = leBytes 16 n := by
  rw [fixed_leBytes]; congr 1; omega

theorem goTy_uintKind (t : RTy) : (goTy t).uintKind = (match t with | .uint w => some w | _ => none) := by
  cases t <;> simp [goTy, Ty.uintKind, Ty.kind, Lib.kind]

theorem goTy_loses (t : RTy) : losesVarint (goTy t) = false := by
  cases t <;> simp [goTy, losesVarint]

theorem goFields_enum (i : Nat) (ts : RTys) : (goFields i ts).isEnum = false := by
  cases ts with
  | nil => simp [goFields, Fields.isEnum]
  | cons t ts => cases t <;> simp [goFields, goTy, Fields.isEnum]

theorem box_enum (t : RTy) : (Fields.cons { name := nthName 0 } (goTy t) .nil).isEnum = false := by
  cases t <;> simp [goTy, Fields.isEnum]

theorem box_wire (t : RTy) (o : Order) (s : Bool) (x : Val) :
    wire .borsh (boxTy (goTy t)) o s (.struct [x]) = wire .borsh (goTy t) .le false x := by
  simp only [boxTy, wire, box_enum]
  rw [if_neg (by simp)]
  simp [wireFields, fieldWire, announced]

theorem goVariants_box (t : RTy) (x : Val) :
    wire .borsh (if t.boxedVariant then boxTy (goTy t) else goTy t) .le false (if t.boxedVariant then .struct [x] else x) =
      wire .borsh (goTy t) .le false x := by
  cases t.boxedVariant <;> simp [box_wire]

theorem goOption_box (t : RTy) (x : Val) :
    wire .borsh (if t.boxedOption then boxTy (goTy t) else goTy t) .le false (if t.boxedOption then .struct [x] else x) =
      wire .borsh (goTy t) .le false x := by
  cases t.boxedOption <;> simp [box_wire]

theorem goVariants_zeros : ∀ (ts : RTys) (i j : Nat), (goVariants i ts).zeros = (goVariants j ts).zeros
  | .nil, _, _ => by simp [goVariants]
  | .cons t ts, i, j => by simp only [goVariants, Fields.zeros]; rw [goVariants_zeros ts (i + 1) (j + 1)]

/-! ### Keys -/

theorem key_rank {N : Nat} {k : RTy} (hk : k.isKey = true) {x y : RVal} (hx : RFits N k x) (hy : RFits N k y) (h : keyLess x y) :
    rankLe (keyRank (goTy k).kind (goVal k x)) (keyRank (goTy k).kind (goVal k y)) = true ∧
      (goTy k).keyEq (goVal k x) (goVal k y) = false := by
  cases k <;> simp [RTy.isKey] at hk <;> cases x <;> simp [RFits] at hx <;> cases y <;> simp [RFits] at hy <;>
    simp [keyLess] at h <;> simp [goVal, goTy, keyRank, rankLe, Ty.keyEq, Val.plainEq]
  · omega
  · exact ⟨Or.inl (decide_eq_true h), by omega⟩
  · exact ⟨decide_eq_true (List.le_of_lt h), fun hc => by subst hc; exact List.lt_irrefl _ h⟩

theorem key_refl {N : Nat} {k : RTy} (hk : k.isKey = true) {x : RVal} (hx : RFits N k x) :
    (goTy k).keyEq (goVal k x) (goVal k x) = true := by
  cases k <;> simp [RTy.isKey] at hk <;> cases x <;> simp [RFits] at hx <;> simp [goVal, goTy, Ty.keyEq, Val.plainEq]

/-- the entries of a map, as they are given -/
abbrev goEntries (k t : RTy) (m : List (RVal × RVal)) : List (Val × Val) := m.map fun x => (goVal k x.1, goVal t x.2)

theorem goEntries_keys {N : Nat} {k t : RTy} (hk : k.isKey = true) : ∀ {m : List (RVal × RVal)},
    m.Pairwise (fun x y => keyLess x.1 y.1) → (∀ x ∈ m, RFits N k x.1 ∧ RFits N t x.2) →
    (goEntries k t m).Pairwise (fun x y => rankLe (keyRank (goTy k).kind x.1) (keyRank (goTy k).kind y.1) = true ∧
      (goTy k).keyEq x.1 y.1 = false) := by
  intro m h hf
  rw [List.pairwise_map]
  exact h.imp_of_mem fun hx hy hl => key_rank hk (hf _ hx).1 (hf _ hy).1 hl

theorem goEntries_sorted {N : Nat} {k t : RTy} (hk : k.isKey = true) {m : List (RVal × RVal)}
    (h : m.Pairwise (fun x y => keyLess x.1 y.1)) (hf : ∀ x ∈ m, RFits N k x.1 ∧ RFits N t x.2) :
    entries .borsh (goTy k) (goEntries k t m) = goEntries k t m := by
  simp only [entries, if_true, ascending]
  exact List.mergeSort_of_pairwise ((goEntries_keys hk h hf).imp fun hh => hh.1)

theorem flatMap_congr {α β : Type} {f g : α → List β} : ∀ {xs : List α}, (∀ x ∈ xs, f x = g x) → xs.flatMap f = xs.flatMap g
  | [], _ => rfl
  | x :: xs, h => by
    rw [List.flatMap_cons, List.flatMap_cons, h x (by simp), flatMap_congr fun y hy => h y (by simp [hy])]

theorem some_wire (t : Ty) (x : Val) : wire .borsh (.ptr t) .le false (.ptr (some x)) = wire .borsh t .le false x := by
  simp only [wire]; split <;> rfl

theorem getD_seq {α β : Type} (f : α → β) (xs : List α) : (if xs.isEmpty then none else some (xs.map f)).getD [] = xs.map f := by
  cases xs <;> simp

theorem wire_slice_getD (t : Ty) (h : losesVarint t = false) (xs : Option (List Val)) :
    wire .borsh (.slice t) .le false (.seq xs) = lenPrefix .borsh (xs.getD []).length ++ (xs.getD []).flatMap fun x => wire .borsh t .le false x := by
  have := slice_wire (e := .borsh) h .le false (xs.getD [])
  simp only [Bool.false_eq_true, if_false] at this
  rw [← this]
  cases xs <;> simp [wire]

/-! ### The bytes -/

mutual
theorem go_wire {N : Nat} : ∀ (t : RTy) (v : RVal), RFits N t v → wire .borsh (goTy t) .le false (goVal t v) = rust t v
  | .unit, v, h => by cases v <;> simp [RFits] at h; simp [goTy, goVal, wire, libWire, rust]
  | .bool, v, h => by cases v <;> simp [RFits] at h; simp [goTy, goVal, wire, rust]
  | .uint w, v, h => by cases v <;> simp [RFits] at h; simp [goTy, goVal, wire, rust, ord, fixed_leBytes]
  | .int w, v, h => by
    cases v <;> simp only [RFits] at h
    simp [goTy, goVal, wire, rust, ord, fixed_leBytes, unsigned_twos (b := w.bits) (by cases w <;> decide) h]
  | .u128, v, h => by
    cases v <;> simp only [RFits] at h
    simp only [goTy, goVal, wire, libWire, rust, fixed_halves]
  | .i128, v, h => by
    cases v <;> simp only [RFits] at h
    simp only [goTy, goVal, wire, libWire, rust, fixed_halves]
  | .f32, v, h => by cases v <;> simp [RFits] at h; simp [goTy, goVal, wire, rust, ord, fixed_leBytes]
  | .f64, v, h => by cases v <;> simp [RFits] at h; simp [goTy, goVal, wire, rust, ord, fixed_leBytes]
  | .string, v, h => by
    cases v <;> simp [RFits] at h
    simp [goTy, goVal, wire, rust, strPrefix, lenPrefix, fixed_leBytes]
  | .vec t, v, h => by
    cases v <;> simp only [RFits] at h
    rename_i xs
    rw [goTy, goVal, wire_slice_getD _ (goTy_loses t), getD_seq, rust, lenPrefix, fixed_leBytes, List.length_map, List.flatMap_map]
    congr 1
    exact flatMap_congr fun x hx => go_wire t x (h.2.2 x hx)
  | .array n t, v, h => by
    cases v <;> simp only [RFits] at h
    rename_i xs
    rw [goTy, goVal, array_wire (goTy_loses t), rust, List.flatMap_map]
    exact flatMap_congr fun x hx => go_wire t x (h.2.2 x hx)
  | .option t, .none, h => by
    simp [goTy, goVal, wire, rust, Fields.isEnum, wireFields, fieldWire, Ty.isZero, flag, fixed_one]
  | .option t, .some x, h => by
    simp only [RFits] at h
    have ih := go_wire t x h
    have hp := (some_wire _ _).trans ((goOption_box t (goVal t x)).trans ih)
    rw [goTy, goVal, rust]
    generalize (if t.boxedOption = true then boxTy (goTy t) else goTy t) = B at hp ⊢
    generalize (if t.boxedOption = true then Val.struct [goVal t x] else goVal t x) = X at hp ⊢
    simp only [wire]
    rw [if_neg (by simp [Fields.isEnum]), wireFields, if_neg (by simp), if_pos rfl, fieldWire, if_neg (by simp [Ty.isZero]),
      if_pos rfl, if_neg (by simp)]
    simp only [announced, wireFields, flag, fixed_one, if_true, if_neg (show ¬ Encoding.borsh = Encoding.bin by decide)]
    rw [show ([] : List Bytes).contains (nthName 0) = false from rfl, hp]
    simp
  | .map k t, v, h => by
    cases v <;> simp only [RFits] at h
    rename_i m
    obtain ⟨-, hk, hs, hf⟩ := h
    simp only [goTy, goVal, wire, getD_seq, rust, lenPrefix, fixed_leBytes, List.length_map]
    rw [goEntries_sorted hk hs hf, List.flatMap_map]
    congr 1
    exact flatMap_congr fun x hx => by rw [go_wire k x.1 (hf x hx).1, go_wire t x.2 (hf x hx).2]
  | .struct ts, v, h => by
    cases v <;> simp only [RFits] at h
    simp only [goTy, goVal, wire, goFields_enum, rust]
    rw [if_neg (by simp)]
    exact goAll_wire ts 0 _ h
  | .enum ts, v, h => by
    cases v <;> simp only [RFits] at h
    simp only [goTy, goVal, wire, Fields.isEnum, rust, fixed_one, wireNth]
    rw [if_pos (by simp)]
    simp [goNth_wire ts 1 _ h.2]
  | .option _, .unit, h | .option _, .bool _, h | .option _, .uint _, h | .option _, .int _, h | .option _, .float _, h
  | .option _, .string _, h | .option _, .seq _, h | .option _, .map _, h | .option _, .struct _, h
  | .option _, .variant _ _, h => by simp [RFits] at h
theorem goAll_wire {N : Nat} : ∀ (ts : RTys) (i : Nat) (vs : List RVal), RFitsAll N ts vs →
    wireFields .borsh (goFields i ts) [] (goVals ts vs) = rustAll ts vs
  | .nil, _, vs, h => by simp [goFields, goVals, wireFields, rustAll]
  | .cons t ts, i, [], h => by simp [RFitsAll] at h
  | .cons t ts, i, v :: vs, h => by
    simp only [RFitsAll] at h
    have h1 := go_wire t v h.1
    have h2 := goAll_wire ts (i + 1) vs h.2
    simp [goFields, goVals, wireFields, fieldWire, announced, rustAll, h1, h2]
theorem goNth_wire {N : Nat} : ∀ (ts : RTys) (j i : Nat) {x : RVal}, RFitsNth N ts i x →
    wireNth .borsh (goVariants j ts) i (goPayloads ts i x) = rustNth ts i x
  | .nil, _, i, x, h => by simp [RFitsNth] at h
  | .cons t ts, j, 0, x, h => by
    simp only [RFitsNth] at h
    simp only [goVariants, goPayloads, wireNth, rustNth]
    rw [goVariants_box, go_wire t x h]
  | .cons t ts, j, i + 1, x, h => by
    simp only [RFitsNth] at h
    simp only [goVariants, goPayloads, wireNth, rustNth]
    exact goNth_wire ts (j + 1) i h
end

/-! ### Every value of such a type takes a byte -/

mutual
theorem takes_byte {N : Nat} : ∀ (t : RTy) (v : RVal), t.takesBytes = true → RFits N t v → 0 < (rust t v).length
  | .unit, v, h, _ => by simp [RTy.takesBytes] at h
  | .bool, v, _, h => by cases v <;> simp [RFits] at h; simp [rust]
  | .uint w, v, _, h => by cases v <;> simp [RFits] at h; simp [rust]; cases w <;> decide
  | .int w, v, _, h => by cases v <;> simp [RFits] at h; simp [rust]; cases w <;> decide
  | .u128, v, _, h => by cases v <;> simp [RFits] at h; simp [rust]
  | .i128, v, _, h => by cases v <;> simp [RFits] at h; simp [rust]
  | .f32, v, _, h => by cases v <;> simp [RFits] at h; simp [rust]
  | .f64, v, _, h => by cases v <;> simp [RFits] at h; simp [rust]
  | .string, v, _, h => by cases v <;> simp [RFits] at h; simp [rust]; omega
  | .vec t, v, _, h => by cases v <;> simp only [RFits] at h; simp [rust]; omega
  | .array n t, v, ht, h => by
    cases v <;> simp only [RFits] at h
    rename_i xs
    simp only [RTy.takesBytes, Bool.and_eq_true, decide_eq_true_eq] at ht
    cases xs with
    | nil => simp at h; omega
    | cons x xs =>
      have := takes_byte t x ht.2 (h.2.2 x (by simp))
      simp [rust]; omega
  | .option t, v, _, h => by cases v <;> simp only [RFits] at h <;> simp [rust]
  | .map k t, v, _, h => by cases v <;> simp only [RFits] at h; simp [rust]; omega
  | .struct ts, v, ht, h => by
    cases v <;> simp only [RFits] at h
    simp only [RTy.takesBytes] at ht
    simp only [rust]
    exact takes_bytes ts _ ht h
  | .enum ts, v, _, h => by cases v <;> simp only [RFits] at h; simp [rust]
theorem takes_bytes {N : Nat} : ∀ (ts : RTys) (vs : List RVal), ts.takesBytes = true → RFitsAll N ts vs → 0 < (rustAll ts vs).length
  | .nil, vs, h, _ => by simp [RTys.takesBytes] at h
  | .cons t ts, [], _, h => by simp [RFitsAll] at h
  | .cons t ts, v :: vs, ht, h => by
    simp only [RFitsAll] at h
    simp only [RTys.takesBytes, Bool.or_eq_true] at ht
    simp only [rustAll, List.length_append]
    rcases ht with ht | ht
    · have := takes_byte t v ht h.1; omega
    · have := takes_bytes ts vs ht h.2; omega
end

theorem length_le_flatMap {α : Type} {f : α → Bytes} : ∀ {xs : List α}, (∀ x ∈ xs, 0 < (f x).length) → xs.length ≤ (xs.flatMap f).length
  | [], _ => by simp
  | x :: xs, h => by
    have h1 := h x (by simp)
    have h2 := length_le_flatMap (f := f) (xs := xs) fun y hy => h y (by simp [hy])
    simp only [List.flatMap_cons, List.length_append, List.length_cons]; omega

/-! ### It has an encoding -/

theorem box_encodable (t : RTy) (x : Val) (h : Encodable .borsh (goTy t) none x) : Encodable .borsh (boxTy (goTy t)) none (.struct [x]) := by
  simp only [boxTy, Encodable, box_enum]
  rw [if_neg (by simp)]
  simp [EncodableFields, announce, lookupSize, h]

theorem elem_encodable {N : Nat} (t : RTy) (x : RVal) (hf : RFits N t x) (h : Encodable .borsh (goTy t) none (goVal t x)) :
    match (goTy t).uintKind with
    | some w => UintElem w (goVal t x)
    | none => Encodable .borsh (goTy t) none (goVal t x) := by
  cases t <;> simp only [goTy, Ty.uintKind, Ty.kind, Lib.kind] at h ⊢ <;> try exact h
  cases x <;> simp [RFits] at hf
  simpa [goVal, UintElem] using hf

theorem box_payload (t : RTy) (x : Val) :
    payloadOk (if t.boxedVariant then boxTy (goTy t) else goTy t) (if t.boxedVariant then .struct [x] else x) := by
  cases t <;> simp [RTy.boxedVariant, goTy, boxTy, payloadOk, payloadBase]

mutual
theorem go_encodable {N : Nat} (hN : N ≤ 2 ^ 32 - 1) : ∀ (t : RTy) (v : RVal), RFits N t v → Encodable .borsh (goTy t) none (goVal t v)
  | .unit, v, h => by cases v <;> simp [RFits] at h; simp [goTy, goVal, Encodable, LibEnc]
  | .bool, v, h => by cases v <;> simp [RFits] at h; simp [goTy, goVal, Encodable]
  | .uint w, v, h => by cases v <;> simp only [RFits] at h; simpa only [goTy, goVal, Encodable] using h
  | .int w, v, h => by cases v <;> simp only [RFits] at h; simpa only [goTy, goVal, Encodable] using h
  | .u128, v, h => by
    cases v <;> simp only [RFits] at h
    simp only [goTy, goVal, Encodable, LibEnc]
    omega
  | .i128, v, h => by
    cases v <;> simp only [RFits] at h
    have := unsigned_lt h
    simp only [goTy, goVal, Encodable, LibEnc]
    omega
  | .f32, v, h => by
    cases v <;> simp only [RFits] at h
    simp only [goTy, goVal, Encodable]
    exact ⟨h.1, fun hs => by simp [signalling32, h.2] at hs, fun _ => h.2⟩
  | .f64, v, h => by
    cases v <;> simp only [RFits] at h
    simp only [goTy, goVal, Encodable]
    exact ⟨h.1, fun _ => h.2⟩
  | .string, v, h => by
    cases v <;> simp only [RFits] at h
    simp only [goTy, goVal, Encodable, maxStr, maxLen]; omega
  | .vec t, v, h => by
    cases v <;> simp only [RFits] at h
    rename_i xs
    simp only [goTy, goVal, Encodable, getD_seq, List.length_map, maxLen]
    refine ⟨by omega, fun y hy => ?_⟩
    obtain ⟨x, hx, rfl⟩ := List.mem_map.1 hy
    exact elem_encodable t x (h.2.2 x hx) (go_encodable hN t x (h.2.2 x hx))
  | .array n t, v, h => by
    cases v <;> simp only [RFits] at h
    rename_i xs
    simp only [goTy, goVal, Encodable, List.length_map]
    refine ⟨h.1, fun y hy => ?_⟩
    obtain ⟨x, hx, rfl⟩ := List.mem_map.1 hy
    exact elem_encodable t x (h.2.2 x hx) (go_encodable hN t x (h.2.2 x hx))
  | .option t, .none, h => by
    simp [goTy, goVal, Encodable, Fields.isEnum, EncodableFields, announce, absent, Ty.isZero]
  | .option t, .some x, h => by
    simp only [RFits] at h
    have ih := go_encodable hN t x h
    have hp : Encodable .borsh (if t.boxedOption then boxTy (goTy t) else goTy t) none
        (if t.boxedOption then .struct [goVal t x] else goVal t x) := by
      split
      · exact box_encodable t _ ih
      · exact ih
    rw [goTy, goVal]
    generalize (if t.boxedOption = true then boxTy (goTy t) else goTy t) = B at hp ⊢
    generalize (if t.boxedOption = true then Val.struct [goVal t x] else goVal t x) = X at hp ⊢
    simp [Encodable, Fields.isEnum, EncodableFields, announce, lookupSize, hp]
  | .map k t, v, h => by
    cases v <;> simp only [RFits] at h
    rename_i m
    obtain ⟨hl, hk, hs, hf⟩ := h
    simp only [goTy, goVal, Encodable, getD_seq, List.length_map, maxLen]
    refine ⟨by omega, fun _ => ?_, (goEntries_keys hk hs hf).imp fun hh => hh.2, fun y hy => ?_⟩
    · cases k <;> simp [RTy.isKey] at hk <;> simp [goTy, orderedKey]
    · obtain ⟨x, hx, rfl⟩ := List.mem_map.1 hy
      exact ⟨key_refl hk (hf x hx).1, go_encodable hN k x.1 (hf x hx).1, go_encodable hN t x.2 (hf x hx).2⟩
  | .struct ts, v, h => by
    cases v <;> simp only [RFits] at h
    simp only [goTy, goVal, Encodable, goFields_enum]
    rw [if_neg (by simp)]
    exact goAll_encodable hN ts 0 _ h
  | .enum ts, v, h => by
    cases v <;> simp only [RFits] at h
    simp only [goTy, goVal, Encodable, Fields.isEnum, EncodableNth]
    rw [if_pos (by simp)]
    exact ⟨h.1, goNth_encodable hN ts 1 _ h.2⟩
  | .option _, .unit, h | .option _, .bool _, h | .option _, .uint _, h | .option _, .int _, h | .option _, .float _, h
  | .option _, .string _, h | .option _, .seq _, h | .option _, .map _, h | .option _, .struct _, h
  | .option _, .variant _ _, h => by simp [RFits] at h
theorem goAll_encodable {N : Nat} (hN : N ≤ 2 ^ 32 - 1) : ∀ (ts : RTys) (i : Nat) (vs : List RVal), RFitsAll N ts vs →
    EncodableFields .borsh (goFields i ts) [] (goVals ts vs)
  | .nil, _, vs, h => by simp [goFields, goVals, EncodableFields]
  | .cons t ts, i, [], h => by simp [RFitsAll] at h
  | .cons t ts, i, v :: vs, h => by
    simp only [RFitsAll] at h
    have h1 := go_encodable hN t v h.1
    have h2 := goAll_encodable hN ts (i + 1) vs h.2
    simp [goFields, goVals, EncodableFields, announce, lookupSize, h1, h2]
theorem goNth_encodable {N : Nat} (hN : N ≤ 2 ^ 32 - 1) : ∀ (ts : RTys) (j i : Nat) {x : RVal}, RFitsNth N ts i x →
    EncodableNth .borsh (goVariants j ts) i (goPayloads ts i x)
  | .nil, _, i, x, h => by simp [RFitsNth] at h
  | .cons t ts, j, 0, x, h => by
    simp only [RFitsNth] at h
    simp only [goVariants, goPayloads, EncodableNth]
    refine ⟨box_payload t _, ?_⟩
    split
    · exact box_encodable t _ (go_encodable hN t x h)
    · exact go_encodable hN t x h
  | .cons t ts, j, i + 1, x, h => by
    simp only [RFitsNth] at h
    simp only [goVariants, goPayloads, EncodableNth]
    exact goNth_encodable hN ts (j + 1) i h
end

/-! ### It is read back, as it was -/

theorem box_returns (t : RTy) (x : Val) (h : Returns .borsh (goTy t) false x) : Returns .borsh (boxTy (goTy t)) false (.struct [x]) := by
  simp only [boxTy, Returns, box_enum]
  rw [if_neg (by simp)]
  simp [ReturnsFields, announced, h]

theorem box_copy (t : RTy) (x : Val) (h : copy .borsh (goTy t) x = x) : copy .borsh (boxTy (goTy t)) (.struct [x]) = .struct [x] := by
  simp only [boxTy, copy, box_enum]
  rw [if_neg (by simp)]
  simp [copyFields, absent, h]

theorem boxed_direct (t : RTy) : (Ty.ptr (if t.boxedOption then boxTy (goTy t) else goTy t)).directLib = none := by
  cases t <;> simp [RTy.boxedOption, goTy, boxTy, Ty.directLib, Ty.asLib]

theorem key_copy {N : Nat} {k : RTy} (hk : k.isKey = true) {x : RVal} (hx : RFits N k x) :
    copy .borsh (goTy k) (goVal k x) = goVal k x := by
  cases k <;> simp [RTy.isKey] at hk <;> cases x <;> simp [RFits] at hx <;> simp [goVal, goTy, copy]

/-- what has to be shown of a value: it is read, and unchanged -/
abbrev GoBack (t : Ty) (x : Val) : Prop := Returns .borsh t false x ∧ copy .borsh t x = x

theorem map_same {α : Type} {f : α → α} {xs : List α} (h : ∀ x ∈ xs, f x = x) : xs.map f = xs :=
  (List.map_congr_left h).trans (List.map_id _)

mutual
theorem go_back {N : Nat} (hN : N ≤ 2 ^ 31 - 1) : ∀ (t : RTy) (v : RVal), RFits N t v → GoBack (goTy t) (goVal t v)
  | .unit, v, h => by cases v <;> simp [RFits] at h; simp [goTy, goVal, GoBack, Returns, LibRet, copy, copyLib]
  | .bool, v, h => by cases v <;> simp [RFits] at h; simp [goTy, goVal, GoBack, Returns, copy]
  | .uint w, v, h => by cases v <;> simp only [RFits] at h; simp [goTy, goVal, GoBack, Returns, copy]
  | .int w, v, h => by cases v <;> simp only [RFits] at h; simp [goTy, goVal, GoBack, Returns, copy]
  | .u128, v, h => by cases v <;> simp only [RFits] at h; simp [goTy, goVal, GoBack, Returns, LibRet, copy, copyLib]
  | .i128, v, h => by cases v <;> simp only [RFits] at h; simp [goTy, goVal, GoBack, Returns, LibRet, copy, copyLib]
  | .f32, v, h => by cases v <;> simp only [RFits] at h; simp [goTy, goVal, GoBack, Returns, copy]
  | .f64, v, h => by cases v <;> simp only [RFits] at h; simp [goTy, goVal, GoBack, Returns, copy]
  | .string, v, h => by
    cases v <;> simp only [RFits] at h
    simp only [goTy, goVal, GoBack, Returns, copy, readMax, and_true]; omega
  | .vec t, v, h => by
    cases v <;> simp only [RFits] at h
    rename_i xs
    have ih : ∀ x ∈ xs, GoBack (goTy t) (goVal t x) := fun x hx => go_back hN t x (h.2.2 x hx)
    refine ⟨?_, ?_⟩
    · simp only [goTy, goVal, Returns, getD_seq, List.length_map]
      refine ⟨by simp [readMax]; omega, ?_⟩
      split
      · trivial
      · refine ⟨?_, fun y hy => ?_⟩
        · rw [List.flatMap_map, flatMap_congr fun x hx => go_wire t x (h.2.2 x hx)]
          exact length_le_flatMap fun x hx => takes_byte t x h.2.1 (h.2.2 x hx)
        · obtain ⟨x, hx, rfl⟩ := List.mem_map.1 hy
          exact (ih x hx).1
    · simp only [goTy, goVal, copy, getD_seq]
      cases hx : xs with
      | nil => simp
      | cons x xs' =>
        rw [← hx, if_neg (by simp [hx]), map_same (fun y hy => by
          obtain ⟨x, hx, rfl⟩ := List.mem_map.1 hy
          split
          · rfl
          · exact (ih x hx).2)]
        simp [hx]
  | .array n t, v, h => by
    cases v <;> simp only [RFits] at h
    rename_i xs
    have ih : ∀ x ∈ xs, GoBack (goTy t) (goVal t x) := fun x hx => go_back hN t x (h.2.2 x hx)
    refine ⟨?_, ?_⟩
    · simp only [goTy, goVal, Returns]
      split
      · omega
      · intro y hy
        obtain ⟨x, hx, rfl⟩ := List.mem_map.1 hy
        exact (ih x hx).1
    · simp only [goTy, goVal, copy]
      rw [map_same (fun y hy => by
        obtain ⟨x, hx, rfl⟩ := List.mem_map.1 hy
        split
        · rfl
        · exact (ih x hx).2)]
  | .option t, .none, h => by
    simp [goTy, goVal, GoBack, Returns, Fields.isEnum, ReturnsFields, absent, Ty.isZero, copy, copyFields, Ty.zero, boxed_direct, Ty.asLib]
  | .option t, .some x, h => by
    simp only [RFits] at h
    have ih := go_back hN t x h
    have hp : GoBack (if t.boxedOption then boxTy (goTy t) else goTy t) (if t.boxedOption then .struct [goVal t x] else goVal t x) := by
      split
      · exact ⟨box_returns t _ ih.1, box_copy t _ ih.2⟩
      · exact ih
    have hd := boxed_direct t
    rw [goTy, goVal]
    generalize (if t.boxedOption = true then boxTy (goTy t) else goTy t) = B at hp hd ⊢
    generalize (if t.boxedOption = true then Val.struct [goVal t x] else goVal t x) = X at hp ⊢
    simp [GoBack, Returns, Fields.isEnum, ReturnsFields, absent, Ty.isZero, copy, copyFields, announced, hp.1, hp.2, hd, Ty.asLib]
  | .map k t, v, h => by
    cases v <;> simp only [RFits] at h
    rename_i m
    obtain ⟨hl, hk, hs, hf⟩ := h
    have hc : ∀ x ∈ goEntries k t m, copy .borsh (goTy k) x.1 = x.1 ∧ copy .borsh (goTy t) x.2 = x.2 := fun y hy => by
      obtain ⟨x, hx, rfl⟩ := List.mem_map.1 hy
      exact ⟨(go_back hN k x.1 (hf x hx).1).2, (go_back hN t x.2 (hf x hx).2).2⟩
    refine ⟨?_, ?_⟩
    · simp only [goTy, goVal, Returns, getD_seq, List.length_map, readMax]
      refine ⟨by omega, ?_, fun y hy => ?_⟩
      · rw [goEntries_sorted hk hs hf]
        refine (goEntries_keys hk hs hf).imp_of_mem fun hx hy hh => ?_
        rw [(hc _ hx).1, (hc _ hy).1]; exact hh.2
      · obtain ⟨x, hx, rfl⟩ := List.mem_map.1 hy
        exact ⟨(go_back hN k x.1 (hf x hx).1).1, (go_back hN t x.2 (hf x hx).2).1⟩
    · simp only [goTy, goVal, copy, getD_seq]
      cases hm : m with
      | nil => simp
      | cons x m' =>
        rw [← hm, if_neg (by simp [hm]), goEntries_sorted hk hs hf]
        rw [map_same (fun y hy => by rw [(hc y hy).1, (hc y hy).2])]
        simp [hm]
  | .struct ts, v, h => by
    cases v <;> simp only [RFits] at h
    have := goAll_back hN ts 0 _ h
    simp only [GoBack, goTy, goVal, Returns, copy, goFields_enum]
    rw [if_neg (by simp), if_neg (by simp)]
    exact ⟨this.1, by rw [this.2]⟩
  | .enum ts, v, h => by
    cases v <;> simp only [RFits] at h
    have := goNth_back hN ts 1 _ h.2
    simp only [GoBack, goTy, goVal, Returns, copy, Fields.isEnum, ReturnsNth, copyNth]
    rw [if_pos (by simp), if_pos (by simp)]
    exact ⟨this.1, by rw [this.2]; rfl⟩
  | .option _, .unit, h | .option _, .bool _, h | .option _, .uint _, h | .option _, .int _, h | .option _, .float _, h
  | .option _, .string _, h | .option _, .seq _, h | .option _, .map _, h | .option _, .struct _, h
  | .option _, .variant _ _, h => by simp [RFits] at h
theorem goAll_back {N : Nat} (hN : N ≤ 2 ^ 31 - 1) : ∀ (ts : RTys) (i : Nat) (vs : List RVal), RFitsAll N ts vs →
    ReturnsFields .borsh (goFields i ts) [] false (goVals ts vs) ∧ copyFields .borsh (goFields i ts) (goVals ts vs) = goVals ts vs
  | .nil, _, vs, h => by simp [goFields, goVals, ReturnsFields, copyFields]
  | .cons t ts, i, [], h => by simp [RFitsAll] at h
  | .cons t ts, i, v :: vs, h => by
    simp only [RFitsAll] at h
    have h1 := go_back hN t v h.1
    have h2 := goAll_back hN ts (i + 1) vs h.2
    simp [goFields, goVals, ReturnsFields, copyFields, announced, absent, h1.1, h1.2, h2.1, h2.2]
theorem goNth_back {N : Nat} (hN : N ≤ 2 ^ 31 - 1) : ∀ (ts : RTys) (j i : Nat) {x : RVal}, RFitsNth N ts i x →
    ReturnsNth .borsh (goVariants j ts) i (goPayloads ts i x) ∧ copyNth .borsh (goVariants j ts) i (goPayloads ts i x) = goPayloads ts i x
  | .nil, _, i, x, h => by simp [RFitsNth] at h
  | .cons t ts, j, 0, x, h => by
    simp only [RFitsNth] at h
    have ih := go_back hN t x h
    simp only [goVariants, goPayloads, ReturnsNth, copyNth]
    rw [goVariants_zeros ts (j + 1) 0]
    split
    · exact ⟨box_returns t _ ih.1, by rw [box_copy t _ ih.2]⟩
    · exact ⟨ih.1, by rw [ih.2]⟩
  | .cons t ts, j, i + 1, x, h => by
    simp only [RFitsNth] at h
    have ih := goNth_back hN ts (j + 1) i h
    simp only [goVariants, goPayloads, ReturnsNth, copyNth]
    exact ⟨ih.1, by rw [ih.2]⟩
end

/-! ### What Go writes is the encoding of a Rust value -/

/-- the Rust number with these bits -/
def signed128 (n : Nat) : Int := if n < 2 ^ 127 then (n : Int) else (n : Int) - 2 ^ 128

theorem signed128_spec {n : Nat} (h : n < 2 ^ 128) :
    (-2 ^ 127 ≤ signed128 n ∧ signed128 n < 2 ^ 127) ∧ unsigned 128 (signed128 n) = n := by
  unfold signed128 unsigned
  by_cases hn : n < 2 ^ 127
  · rw [if_pos hn]; refine ⟨by omega, ?_⟩; rw [if_neg (by omega)]; omega
  · rw [if_neg hn]; refine ⟨by omega, ?_⟩; rw [if_pos (by omega)]; omega

theorem elem_encodable' (t : RTy) (x : Val)
    (h : match (goTy t).uintKind with | some w => UintElem w x | none => Encodable .borsh (goTy t) none x) :
    Encodable .borsh (goTy t) none x := by
  cases t <;> simp only [goTy, Ty.uintKind, Ty.kind, Lib.kind] at h ⊢ <;> try exact h
  cases x <;> simp [UintElem] at h
  simpa [Encodable] using h

theorem box_inv (t : RTy) {X : Val} (h : Encodable .borsh (boxTy (goTy t)) none X) :
    ∃ x, X = .struct [x] ∧ Encodable .borsh (goTy t) none x := by
  cases X <;> simp only [boxTy, Encodable] at h
  rename_i vs
  rw [box_enum, if_neg (by simp)] at h
  match vs, h with
  | [], h => simp [EncodableFields] at h
  | [x], h =>
    simp only [EncodableFields, announce, if_true] at h
    exact ⟨x, rfl, by simpa [absent, lookupSize] using h.1⟩
  | x :: y :: vs, h => simp [EncodableFields, announce] at h

/-- what is to be shown -/
abbrev FromRust (t : RTy) (x : Val) : Prop :=
  ∃ v, RFits (2 ^ 32 - 1) t v ∧ wire .borsh (goTy t) .le false x = rust t v

theorem seq_rust {t : RTy} : ∀ {xs : List Val}, (∀ x ∈ xs, FromRust t x) →
    ∃ vs : List RVal, vs.length = xs.length ∧ (∀ v ∈ vs, RFits (2 ^ 32 - 1) t v) ∧
      (xs.flatMap fun x => wire .borsh (goTy t) .le false x) = vs.flatMap fun v => rust t v
  | [], _ => ⟨[], rfl, by simp, rfl⟩
  | x :: xs, h => by
    obtain ⟨v, h1, h2⟩ := h x (by simp)
    obtain ⟨vs, h3, h4, h5⟩ := seq_rust (xs := xs) fun y hy => h y (by simp [hy])
    refine ⟨v :: vs, by simp [h3], ?_, by simp [h2, h5]⟩
    intro w hw
    rcases List.mem_cons.1 hw with rfl | hw
    · exact h1
    · exact h4 w hw

/-- the Rust key of a Go key -/
def keyOf : Val → RVal
  | .uint n => .uint n
  | .int z => .int z
  | .str s => .string s
  | _ => .unit

theorem keyOf_spec {k : RTy} (hk : k.isKey = true) {x : Val} (h : Encodable .borsh (goTy k) none x) :
    RFits (2 ^ 32 - 1) k (keyOf x) ∧ goVal k (keyOf x) = x := by
  cases k <;> simp [RTy.isKey] at hk <;> cases x <;> simp only [goTy, Encodable] at h
  · exact ⟨by simpa only [keyOf, RFits] using h, by simp [keyOf, goVal]⟩
  · exact ⟨by simpa only [keyOf, RFits] using h, by simp [keyOf, goVal]⟩
  · exact ⟨by simp only [keyOf, RFits]; exact h, by simp [keyOf, goVal]⟩

theorem keyOf_less {k : RTy} (hk : k.isKey = true) {x y : Val} (hx : Encodable .borsh (goTy k) none x)
    (hy : Encodable .borsh (goTy k) none y) (hr : rankLe (keyRank (goTy k).kind x) (keyRank (goTy k).kind y) = true)
    (hn : (goTy k).keyEq x y = false) : keyLess (keyOf x) (keyOf y) := by
  cases k <;> simp [RTy.isKey] at hk <;> cases x <;> simp only [goTy, Encodable] at hx <;> cases y <;>
    simp only [goTy, Encodable] at hy <;> simp [keyRank, rankLe, goTy, Ty.keyEq, Val.plainEq] at hr hn <;> simp only [keyOf, keyLess]
  · rcases hr with hr | hr
    · exact hr
    · have := of_decide_eq_true hr; omega
  · rcases hr with hr | hr
    · exact of_decide_eq_true hr
    · exact absurd (of_decide_eq_true hr) hn
  · refine Decidable.byContradiction fun hc => hn ?_
    exact List.le_antisymm (of_decide_eq_true hr) (List.not_lt.1 hc)

theorem entries_rust {k t : RTy} (hk : k.isKey = true) : ∀ {l : List (Val × Val)},
    (∀ x ∈ l, Encodable .borsh (goTy k) none x.1 ∧ FromRust t x.2) →
    ∃ m : List (RVal × RVal), (m.map fun x => x.1) = (l.map fun x => keyOf x.1) ∧
      (∀ x ∈ m, RFits (2 ^ 32 - 1) k x.1 ∧ RFits (2 ^ 32 - 1) t x.2) ∧
      (l.flatMap fun x => wire .borsh (goTy k) .le false x.1 ++ wire .borsh (goTy t) .le false x.2) =
        m.flatMap fun x => rust k x.1 ++ rust t x.2
  | [], _ => ⟨[], rfl, by simp, rfl⟩
  | x :: l, h => by
    obtain ⟨hx, v, h1, h2⟩ := h x (by simp)
    obtain ⟨m, h3, h4, h5⟩ := entries_rust hk (l := l) fun y hy => h y (by simp [hy])
    obtain ⟨h6, h7⟩ := keyOf_spec hk hx
    have h8 := go_wire k (keyOf x.1) h6
    rw [h7] at h8
    refine ⟨(keyOf x.1, v) :: m, by simp [h3], ?_, by simp [h2, h5, h8]⟩
    intro y hy
    rcases List.mem_cons.1 hy with rfl | hy
    · exact ⟨h6, h1⟩
    · exact h4 y hy

mutual
theorem from_rust : ∀ (t : RTy) (x : Val), t.wf (2 ^ 32 - 1) → Encodable .borsh (goTy t) none x → FromRust t x
  | .unit, x, _, h => by
    cases x <;> simp [goTy, Encodable, LibEnc] at h
    exact ⟨.unit, by simp [RFits], by simp [goTy, wire, libWire, rust]⟩
  | .bool, x, _, h => by
    cases x <;> simp [goTy, Encodable] at h
    rename_i b
    exact ⟨.bool b, by simp [RFits], by simp [goTy, wire, rust]⟩
  | .uint w, x, _, h => by
    cases x <;> simp only [goTy, Encodable] at h
    rename_i n
    exact ⟨.uint n, by simpa only [RFits] using h, by simp [goTy, wire, rust, ord, fixed_leBytes]⟩
  | .int w, x, _, h => by
    cases x <;> simp only [goTy, Encodable] at h
    rename_i z
    refine ⟨.int z, by simpa only [RFits] using h, ?_⟩
    simp [goTy, wire, rust, ord, fixed_leBytes, unsigned_twos (b := w.bits) (by cases w <;> decide) h]
  | .u128, x, _, h => by
    cases x <;> simp only [goTy, Encodable, LibEnc] at h
    rename_i lo hi e
    exact ⟨.uint (hi * 2 ^ 64 + lo), by simp only [RFits]; omega, by simp only [goTy, wire, libWire, rust, fixed_leBytes]⟩
  | .i128, x, _, h => by
    cases x <;> simp only [goTy, Encodable, LibEnc] at h
    rename_i lo hi e
    have := signed128_spec (n := hi * 2 ^ 64 + lo) (by omega)
    refine ⟨.int (signed128 (hi * 2 ^ 64 + lo)), by simp only [RFits]; exact this.1, ?_⟩
    simp only [goTy, wire, libWire, rust, fixed_leBytes, this.2]
  | .f32, x, _, h => by
    cases x <;> simp only [goTy, Encodable] at h
    rename_i n
    exact ⟨.float n, by simp only [RFits]; exact ⟨h.1, h.2.2 trivial⟩, by simp [goTy, wire, rust, ord, fixed_leBytes]⟩
  | .f64, x, _, h => by
    cases x <;> simp only [goTy, Encodable] at h
    rename_i n
    exact ⟨.float n, by simp only [RFits]; exact ⟨h.1, h.2 trivial⟩, by simp [goTy, wire, rust, ord, fixed_leBytes]⟩
  | .string, x, _, h => by
    cases x <;> simp only [goTy, Encodable, maxStr, maxLen] at h
    rename_i s
    exact ⟨.string s, by simp only [RFits]; exact h, by simp [goTy, wire, rust, strPrefix, lenPrefix, fixed_leBytes]⟩
  | .vec t, x, hw, h => by
    simp only [RTy.wf] at hw
    cases x <;> simp only [goTy, Encodable, maxLen] at h
    rename_i xs
    obtain ⟨vs, h1, h2, h3⟩ := seq_rust (t := t) (xs := xs.getD []) fun y hy => from_rust t y hw.2 (elem_encodable' t y (h.2 y hy))
    refine ⟨.seq vs, ?_, ?_⟩
    · simp only [RFits]; exact ⟨by rw [h1]; exact h.1, hw.1, h2⟩
    · rw [goTy, wire_slice_getD _ (goTy_loses t), h3, rust, h1, lenPrefix, fixed_leBytes]
  | .array n t, x, hw, h => by
    simp only [RTy.wf] at hw
    cases x <;> simp only [goTy, Encodable] at h
    rename_i xs
    obtain ⟨vs, h1, h2, h3⟩ := seq_rust (t := t) (xs := xs) fun y hy => from_rust t y hw.2 (elem_encodable' t y (h.2 y hy))
    refine ⟨.seq vs, ?_, ?_⟩
    · simp only [RFits]; exact ⟨by rw [h1]; exact h.1, hw.1, h2⟩
    · rw [goTy, array_wire (goTy_loses t), h3, rust]
  | .option t, x, hw, h => by
    simp only [RTy.wf] at hw
    cases x <;> simp only [goTy, Encodable] at h
    rename_i vs
    rw [if_neg (by simp [Fields.isEnum])] at h
    match vs, h with
    | [], h => simp [EncodableFields] at h
    | _ :: _ :: _, h => simp [EncodableFields, announce] at h
    | [p], h =>
      simp only [EncodableFields, announce, if_true, Bool.false_eq_true, if_false, and_true, true_implies] at h
      cases p with
      | ptr p =>
        cases p with
        | none =>
          exact ⟨.none, by simp [RFits], by
            simp [goTy, wire, rust, Fields.isEnum, wireFields, fieldWire, Ty.isZero, flag, fixed_one]⟩
        | some X =>
          have hX : Encodable .borsh (if t.boxedOption then boxTy (goTy t) else goTy t) none X := by
            have := h (by simp [absent, Ty.isZero])
            simpa [lookupSize, Encodable] using this
          have hF : ∃ v, RFits (2 ^ 32 - 1) t v ∧
              wire .borsh (if t.boxedOption then boxTy (goTy t) else goTy t) .le false X = rust t v := by
            split at hX
            · obtain ⟨x, rfl, hx⟩ := box_inv t hX
              obtain ⟨v, h1, h2⟩ := from_rust t x hw hx
              rename_i hb
              exact ⟨v, h1, by rw [if_pos hb, box_wire, h2]⟩
            · rename_i hb
              obtain ⟨v, h1, h2⟩ := from_rust t X hw hX
              exact ⟨v, h1, by rw [if_neg hb, h2]⟩
          obtain ⟨v, h1, h2⟩ := hF
          refine ⟨.some v, by simpa only [RFits] using h1, ?_⟩
          have hp := (some_wire _ _).trans h2
          rw [goTy, rust]
          generalize (if t.boxedOption = true then boxTy (goTy t) else goTy t) = B at hp ⊢
          simp only [wire]
          rw [if_neg (by simp [Fields.isEnum]), wireFields, if_neg (by simp), if_pos rfl, fieldWire, if_neg (by simp [Ty.isZero]),
            if_pos rfl, if_neg (by simp)]
          simp only [announced, wireFields, flag, fixed_one, if_true, if_neg (show ¬ Encoding.borsh = Encoding.bin by decide)]
          rw [show ([] : List Bytes).contains (nthName 0) = false from rfl, hp]
          simp
      | _ => exact absurd (h (by simp [absent, Ty.isZero])) (by simp [Encodable])
  | .map k t, x, hw, h => by
    simp only [RTy.wf] at hw
    cases x <;> simp only [goTy, Encodable, maxLen] at h
    rename_i m
    obtain ⟨hl, -, hd, he⟩ := h
    have hp := ascending_perm (goTy k) (m.getD [])
    have hm : ∀ x ∈ ascending (goTy k) (m.getD []), Encodable .borsh (goTy k) none x.1 ∧ Encodable .borsh (goTy t) none x.2 :=
      fun x hx => (he x (hp.mem_iff.1 hx)).2
    obtain ⟨m', h1, h2, h3⟩ := entries_rust (t := t) hw.1 (l := ascending (goTy k) (m.getD []))
      fun x hx => ⟨(hm x hx).1, from_rust t x.2 hw.2 (hm x hx).2⟩
    have hlen : m'.length = (m.getD []).length := by
      have := congrArg List.length h1
      simp only [List.length_map] at this
      rw [this, hp.length_eq]
    refine ⟨.map m', ?_, ?_⟩
    · simp only [RFits]
      refine ⟨by omega, hw.1, ?_, h2⟩
      have hneq : (ascending (goTy k) (m.getD [])).Pairwise fun x y => (goTy k).keyEq x.1 y.1 = false :=
        hp.symm.pairwise hd fun {x y} hxy => by
          cases hc : (goTy k).keyEq y.1 x.1 with
          | false => rfl
          | true => rw [keyEq_comm (goTy k) hc] at hxy; exact absurd hxy (by simp)
      have hboth := (ascending_sorted (goTy k) (m.getD [])).and hneq
      have hmap : (m'.map fun x => x.1).Pairwise keyLess := by
        rw [h1, List.pairwise_map]
        exact hboth.imp_of_mem fun hx hy hh => keyOf_less hw.1 (hm _ hx).1 (hm _ hy).1 hh.1 hh.2
      exact List.pairwise_map.1 hmap
    · simp only [goTy, wire, entries, if_true, lenPrefix, fixed_leBytes, rust, h3, hlen]
  | .struct ts, x, hw, h => by
    simp only [RTy.wf] at hw
    cases x <;> simp only [goTy, Encodable] at h
    rw [goFields_enum, if_neg (by simp)] at h
    obtain ⟨vs, h1, h2⟩ := from_rusts ts 0 _ hw h
    refine ⟨.struct vs, by simpa only [RFits] using h1, ?_⟩
    simp only [goTy, wire, goFields_enum, rust]
    rw [if_neg (by simp)]; exact h2
  | .enum ts, x, hw, h => by
    simp only [RTy.wf] at hw
    cases x <;> simp only [goTy, Encodable] at h
    rename_i vs
    rw [if_pos (by simp [Fields.isEnum])] at h
    match vs, h with
    | .uint n :: vs, h =>
      simp only [EncodableNth] at h
      obtain ⟨v, h1, h2⟩ := from_rustNth ts 1 n vs hw h.2
      refine ⟨.variant n v, by simp only [RFits]; exact ⟨h.1, h1⟩, ?_⟩
      simp only [goTy, wire, Fields.isEnum, rust, fixed_one, wireNth]
      rw [if_pos (by simp), h2]
      simp
theorem from_rusts : ∀ (ts : RTys) (i : Nat) (xs : List Val), ts.wf (2 ^ 32 - 1) → EncodableFields .borsh (goFields i ts) [] xs →
    ∃ vs, RFitsAll (2 ^ 32 - 1) ts vs ∧ wireFields .borsh (goFields i ts) [] xs = rustAll ts vs
  | .nil, _, xs, _, h => ⟨[], by simp [RFitsAll], by simp [goFields, wireFields, rustAll]⟩
  | .cons t ts, i, [], _, h => by simp [goFields, EncodableFields] at h
  | .cons t ts, i, x :: xs, hw, h => by
    simp only [RTys.wf] at hw
    simp only [goFields, EncodableFields, announce, if_true, Bool.false_eq_true, if_false] at h
    obtain ⟨v, h1, h2⟩ := from_rust t x hw.1 (by simpa [absent, lookupSize] using h.1)
    obtain ⟨vs, h3, h4⟩ := from_rusts ts (i + 1) xs hw.2 h.2
    refine ⟨v :: vs, by simp only [RFitsAll]; exact ⟨h1, h3⟩, ?_⟩
    simp [goFields, wireFields, fieldWire, announced, rustAll, h2, h4]
theorem from_rustNth : ∀ (ts : RTys) (j i : Nat) (xs : List Val), ts.wf (2 ^ 32 - 1) → EncodableNth .borsh (goVariants j ts) i xs →
    ∃ v, RFitsNth (2 ^ 32 - 1) ts i v ∧ wireNth .borsh (goVariants j ts) i xs = rustNth ts i v
  | .nil, _, i, xs, _, h => by simp [goVariants, EncodableNth] at h
  | .cons t ts, j, i, [], _, h => by cases i <;> simp [goVariants, EncodableNth] at h
  | .cons t ts, j, 0, X :: xs, hw, h => by
    simp only [RTys.wf] at hw
    simp only [goVariants, EncodableNth] at h
    simp only [goVariants, wireNth, rustNth, RFitsNth]
    have hX := h.2
    split at hX
    · rename_i hb
      obtain ⟨x, rfl, hx⟩ := box_inv t hX
      obtain ⟨v, h1, h2⟩ := from_rust t x hw.1 hx
      exact ⟨v, h1, by rw [if_pos hb, box_wire, h2]⟩
    · rename_i hb
      obtain ⟨v, h1, h2⟩ := from_rust t X hw.1 hX
      exact ⟨v, h1, by rw [if_neg hb, h2]⟩
  | .cons t ts, j, i + 1, x :: xs, hw, h => by
    simp only [RTys.wf] at hw
    simp only [goVariants, EncodableNth] at h
    simp only [goVariants, wireNth, rustNth, RFitsNth]
    exact from_rustNth ts (j + 1) i xs hw.2 h
end

end Verif
