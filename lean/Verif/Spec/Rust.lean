import Verif.Spec.Wire
/-!
# Spec: Borsh as Rust's `borsh` crate has it

Rust types and values, their Borsh encoding after the specification at borsh.io, and the Go types that stand for them: those of the
README, with a pointer under `optional` so that `Some` of a zero value can be told from `None`.  Nothing here refers to the Go
encoder; `leBytes` and the encoding are written out again.
-/
namespace Verif.Spec
open Verif

mutual
/-- Rust types.  A struct is given by the types of its fields, an enum by those of its variants (`unit` for a variant without
payload; several fields are a struct).  Sets, `Result`, `Box`, references and non-zero integers are left out. -/
inductive RTy where
  | unit | bool
  | uint (w : Width)
  | int (w : Width)
  | u128 | i128 | f32 | f64 | string
  | vec (t : RTy)
  | array (n : Nat) (t : RTy)
  | option (t : RTy)
  /-- `BTreeMap` or `HashMap` -/
  | map (k t : RTy)
  | struct (ts : RTys)
  | enum (ts : RTys)
inductive RTys where
  | nil
  | cons (t : RTy) (ts : RTys)
end

/-- Rust values; floats by their bits, maps as their entries in ascending order of the keys. -/
inductive RVal where
  | unit
  | bool (b : Bool)
  | uint (n : Nat)
  | int (z : Int)
  | float (bits : Nat)
  | string (s : Bytes)
  | seq (xs : List RVal)
  | none
  | some (x : RVal)
  | map (m : List (RVal × RVal))
  | struct (vs : List RVal)
  | variant (i : Nat) (x : RVal)

/-- `n` as `k` bytes, the lowest first. -/
def leBytes : Nat → Nat → Bytes
  | 0, _ => []
  | k + 1, n => UInt8.ofNat (n % 256) :: leBytes k (n / 256)

/-- Two's complement on `b` bits. -/
def unsigned (b : Nat) (z : Int) : Nat := if z < 0 then (z + 2 ^ b).toNat else z.toNat

mutual
/-- The Borsh encoding (borsh.io, "Specification"): integers little endian; a `u32` length before strings, vectors and maps; one byte
before an `Option` and before the payload of an enum; structs and arrays without anything around them. -/
def rust : RTy → RVal → Bytes
  | .bool, .bool b => [if b then 1 else 0]
  | .uint w, .uint n => leBytes w.bytes n
  | .int w, .int z => leBytes w.bytes (unsigned w.bits z)
  | .u128, .uint n => leBytes 16 n
  | .i128, .int z => leBytes 16 (unsigned 128 z)
  | .f32, .float n => leBytes 4 n
  | .f64, .float n => leBytes 8 n
  | .string, .string s => leBytes 4 s.length ++ s
  | .vec t, .seq xs => leBytes 4 xs.length ++ xs.flatMap fun x => rust t x
  | .array _ t, .seq xs => xs.flatMap fun x => rust t x
  | .option _, .none => [0]
  | .option t, .some x => 1 :: rust t x
  | .map k t, .map m => leBytes 4 m.length ++ m.flatMap fun x => rust k x.1 ++ rust t x.2
  | .struct ts, .struct vs => rustAll ts vs
  | .enum ts, .variant i x => UInt8.ofNat i :: rustNth ts i x
  | _, _ => []
def rustAll : RTys → List RVal → Bytes
  | .cons t ts, v :: vs => rust t v ++ rustAll ts vs
  | _, _ => []
def rustNth : RTys → Nat → RVal → Bytes
  | .cons t _, 0, x => rust t x
  | .cons _ ts, i + 1, x => rustNth ts i x
  | .nil, _, _ => []
end

/-! ### Which values Rust's `borsh` accepts -/

mutual
/-- Every value takes at least one byte; `borsh` refuses vectors of types without. -/
def RTy.takesBytes : RTy → Bool
  | .unit => false
  | .array n t => 0 < n && t.takesBytes
  | .struct ts => ts.takesBytes
  | .uint _ | .int _ | .bool | .u128 | .i128 | .f32 | .f64 | .string | .vec _ | .option _ | .map _ _ | .enum _ => true
def RTys.takesBytes : RTys → Bool
  | .nil => false
  | .cons t ts => t.takesBytes || ts.takesBytes
end

/-- Key types that both sides can order.  Rust also orders booleans, 128-bit integers, arrays, structs and enums. -/
def RTy.isKey : RTy → Bool
  | .uint _ | .int _ | .string => true
  | _ => false

/-- Ascending keys. -/
def keyLess : RVal → RVal → Prop
  | .uint a, .uint b => a < b
  | .int a, .int b => a < b
  | .string a, .string b => a < b
  | _, _ => False

mutual
/-- The values of a type, with lengths up to `N`; no NaN, which `borsh` refuses; no more than 256 variants. -/
def RFits (N : Nat) : RTy → RVal → Prop
  | .unit, .unit => True
  | .bool, .bool _ => True
  | .uint w, .uint n => n < 2 ^ w.bits
  | .int w, .int z => -2 ^ (w.bits - 1) ≤ z ∧ z < 2 ^ (w.bits - 1)
  | .u128, .uint n => n < 2 ^ 128
  | .i128, .int z => -2 ^ 127 ≤ z ∧ z < 2 ^ 127
  | .f32, .float n => n < 2 ^ 32 ∧ isNaN32 n = false
  | .f64, .float n => n < 2 ^ 64 ∧ isNaN64 n = false
  | .string, .string s => s.length ≤ N
  | .vec t, .seq xs => xs.length ≤ N ∧ t.takesBytes = true ∧ ∀ x ∈ xs, RFits N t x
  | .array n t, .seq xs => xs.length = n ∧ n ≤ N ∧ ∀ x ∈ xs, RFits N t x
  | .option _, .none => True
  | .option t, .some x => RFits N t x
  | .map k t, .map m => m.length ≤ N ∧ k.isKey = true ∧ m.Pairwise (fun x y => keyLess x.1 y.1) ∧
      ∀ x ∈ m, RFits N k x.1 ∧ RFits N t x.2
  | .struct ts, .struct vs => RFitsAll N ts vs
  | .enum ts, .variant i x => i < 256 ∧ RFitsNth N ts i x
  | _, _ => False
def RFitsAll (N : Nat) : RTys → List RVal → Prop
  | .nil, vs => vs = []
  | .cons t ts, v :: vs => RFits N t v ∧ RFitsAll N ts vs
  | .cons _ _, [] => False
def RFitsNth (N : Nat) : RTys → Nat → RVal → Prop
  | .cons t _, 0, x => RFits N t x
  | .cons _ ts, i + 1, x => RFitsNth N ts i x
  | .nil, _, _ => False
end

mutual
/-- Types all of whose values Rust can read back: vectors of types that take bytes, keys as above, arrays no longer than `N`. -/
def RTy.wf (N : Nat) : RTy → Prop
  | .vec t => t.takesBytes = true ∧ t.wf N
  | .array n t => n ≤ N ∧ t.wf N
  | .option t => t.wf N
  | .map k t => k.isKey = true ∧ t.wf N
  | .struct ts => ts.wf N
  | .enum ts => ts.wf N
  | .unit | .bool | .uint _ | .int _ | .u128 | .i128 | .f32 | .f64 | .string => True
def RTys.wf (N : Nat) : RTys → Prop
  | .nil => True
  | .cons t ts => t.wf N ∧ ts.wf N
end

/-! ### The Go types that stand for them -/

/-- Names of fields: A, AA, AAA, ... -/
def nthName (i : Nat) : Bytes := List.replicate (i + 1) 65

/-- A struct around one field: adds no bytes. -/
def boxTy (t : Ty) : Ty := .struct (.cons { name := nthName 0 } t .nil)

/-- Enum payloads that need a struct around them: the Go encoder writes nothing for slices, arrays and maps (C42). -/
def RTy.boxedVariant : RTy → Bool
  | .vec _ | .array _ _ | .map _ _ => true
  | _ => false

/-- Contents of an `Option` that need a struct around them: the Go decoder does not read optional pointers to library types. -/
def RTy.boxedOption : RTy → Bool
  | .unit | .u128 | .i128 => true
  | _ => false

mutual
/-- The Go type of a Rust type.  `Option<T>` is a struct around one optional pointer, so that it can stand anywhere; as a struct adds no
bytes, an optional pointer among other fields is the same (C110). -/
def goTy : RTy → Ty
  | .unit => .lib .emptyVariant
  | .bool => .bool
  | .uint w => .uint w false
  | .int w => .int w false
  | .u128 => .lib .uint128
  | .i128 => .lib .int128
  | .f32 => .f32
  | .f64 => .f64
  | .string => .str
  | .vec t => .slice (goTy t)
  | .array n t => .array n (goTy t)
  | .option t =>
    .struct (.cons { name := nthName 0, tag := { option := true } } (.ptr (if t.boxedOption then boxTy (goTy t) else goTy t)) .nil)
  | .map k t => .map (goTy k) (goTy t)
  | .struct ts => .struct (goFields 0 ts)
  | .enum ts => .struct (.cons { name := nthName 0, tag := { isEnum := true } } .borshEnum (goVariants 1 ts))
def goFields : Nat → RTys → Fields
  | _, .nil => .nil
  | i, .cons t ts => .cons { name := nthName i } (goTy t) (goFields (i + 1) ts)
def goVariants : Nat → RTys → Fields
  | _, .nil => .nil
  | i, .cons t ts => .cons { name := nthName i } (if t.boxedVariant then boxTy (goTy t) else goTy t) (goVariants (i + 1) ts)
end

mutual
/-- The Go value of a Rust value; empty slices and maps are nil. -/
def goVal : RTy → RVal → Val
  | .bool, .bool b => .bool b
  | .uint _, .uint n => .uint n
  | .int _, .int z => .int z
  | .u128, .uint n => .u128 (n % 2 ^ 64) (n / 2 ^ 64) none
  | .i128, .int z => .u128 (unsigned 128 z % 2 ^ 64) (unsigned 128 z / 2 ^ 64) none
  | .f32, .float n => .float n
  | .f64, .float n => .float n
  | .string, .string s => .str s
  | .vec t, .seq xs => .seq (if xs.isEmpty then none else some (xs.map fun x => goVal t x))
  | .array _ t, .seq xs => .arr (xs.map fun x => goVal t x)
  | .option _, .none => .struct [.ptr none]
  | .option t, .some x => .struct [.ptr (some (if t.boxedOption then .struct [goVal t x] else goVal t x))]
  | .map k t, .map m => .map (if m.isEmpty then none else some (m.map fun x => (goVal k x.1, goVal t x.2)))
  | .struct ts, .struct vs => .struct (goVals ts vs)
  | .enum ts, .variant i x => .struct (.uint i :: goPayloads ts i x)
  | _, _ => .struct []
def goVals : RTys → List RVal → List Val
  | .cons t ts, v :: vs => goVal t v :: goVals ts vs
  | _, _ => []
/-- The payload in its variant, zero values in the others. -/
def goPayloads : RTys → Nat → RVal → List Val
  | .nil, _, _ => []
  | .cons t ts, 0, x => (if t.boxedVariant then .struct [goVal t x] else goVal t x) :: (goVariants 0 ts).zeros
  | .cons t ts, i + 1, x => (if t.boxedVariant then boxTy (goTy t) else goTy t).zero :: goPayloads ts i x
end

end Verif.Spec
