import Verif.Spec.Wire
/-!
# Spec: types with the same layout

`SameLayout` relates values of different Go types that a reader of the bytes cannot tell apart: a pointer and its target, an array
and a struct with as many fields, a map and a slice of pairs, a struct and the struct with an embedded part written out, an
optional field and an enum of two variants, and so on.  The rules are about types and values only; no bytes occur in them.
-/
namespace Verif.Spec
open Verif

/-- A value of a type, in a field with a byte order, whose length is or is not carried by an earlier field. -/
structure Place where
  order : Order
  sized : Bool
  ty : Ty
  val : Val

/-- The types to which neither the byte order nor an announced length makes a difference. -/
def steady : Ty → Bool
  | .bool | .str | .borshEnum | .array _ _ | .map _ _ | .struct _ => true
  | .uint w _ | .int w _ => w == .w8
  | .lib l =>
    match l with
    | .jsonFloat64 | .int64 | .uint64 | .uint128 | .int128 | .float128 => false
    | _ => true
  | _ => false

/-- The types of more than one byte to which the byte order makes a difference, except in Borsh. -/
def scalar : Ty → Bool
  | .uint _ _ | .int _ _ | .f32 | .f64 => true
  | _ => false

/-- The two varints that lose their own encoding as elements of slices and arrays. -/
def losesVarint : Ty → Bool
  | .lib .varuint16 | .lib .varuint32 => true
  | _ => false

/-- A struct that is not written as an enum. -/
def recordIn (e : Encoding) (fs : Fields) : Prop := e = .borsh → fs.isEnum = false

/-- An exported field without a tag. -/
def untagged (name : Bytes) : FieldMeta := { name := name }

/-- Fields of one type. -/
def sameFields (t : Ty) : List Bytes → Fields
  | [] => .nil
  | n :: ns => .cons (untagged n) t (sameFields t ns)

/-- `struct { K k; V t }` -/
def pairTy (nk nt : Bytes) (k t : Ty) : Ty := .struct (.cons (untagged nk) k (.cons (untagged nt) t .nil))

def pairVal (x : Val × Val) : Val := .struct [x.1, x.2]

/-- `struct { Enum BorshEnum "enum"; None EmptyVariant; Some t }` -/
def optionTy (n0 n1 n2 : Bytes) (t : Ty) : Ty :=
  .struct (.cons { name := n0, tag := { isEnum := true } } .borshEnum
    (.cons (untagged n1) (.lib .emptyVariant) (.cons (untagged n2) t .nil)))

def optionVal (t : Ty) : Option Val → Val
  | none => .struct [.uint 0, .struct [], t.zero]
  | some v => .struct [.uint 1, .struct [], v]

/-- The fields of `fs`, then those of `gs`. -/
def thenFields : Fields → Fields → Fields
  | .nil, gs => gs
  | .cons m t fs, gs => .cons m t (thenFields fs gs)

/-- No field announces the length of another one. -/
def announcesNone : Fields → Bool
  | .nil => true
  | .cons m _ fs => (m.tag.sizeOf == []) && announcesNone fs

/-- A field of which nothing is written and that announces nothing. -/
def ignored (m : FieldMeta) : Prop := m.tag.skip = true ∨ (m.exported = false ∧ m.tag.sizeOf = [])

mutual
/-- Values with the same layout. -/
inductive SameLayout (e : Encoding) : Place → Place → Prop
  | refl (p : Place) : SameLayout e p p
  | symm {p q : Place} : SameLayout e p q → SameLayout e q p
  | trans {p q r : Place} : SameLayout e p q → SameLayout e q r → SameLayout e p r
  -- the field does not matter
  | steady {o o' : Order} {s s' : Bool} {t : Ty} {v : Val} : Spec.steady t = true → SameLayout e ⟨o, s, t, v⟩ ⟨o', s', t, v⟩
  | scalar {o : Order} {s s' : Bool} {t : Ty} {v : Val} : Spec.scalar t = true → SameLayout e ⟨o, s, t, v⟩ ⟨o, s', t, v⟩
  | borshScalar {o o' : Order} {s : Bool} {t : Ty} {v : Val} : e = .borsh → Spec.scalar t = true →
      SameLayout e ⟨o, s, t, v⟩ ⟨o', s, t, v⟩
  -- names
  | namedUint {o : Order} {s a b : Bool} {w : Width} {v : Val} : SameLayout e ⟨o, s, .uint w a, v⟩ ⟨o, s, .uint w b, v⟩
  | namedInt {o : Order} {s a b : Bool} {w : Width} {v : Val} : SameLayout e ⟨o, s, .int w a, v⟩ ⟨o, s, .int w b, v⟩
  | enumNumber {o : Order} {s a : Bool} {v : Val} : SameLayout e ⟨o, s, .borshEnum, v⟩ ⟨o, s, .uint .w8 a, v⟩
  -- scalars are their bits
  | twos {o : Order} {s a b : Bool} {w : Width} {z : Int} :
      SameLayout e ⟨o, s, .int w a, .int z⟩ ⟨o, s, .uint w b, .uint (Spec.twos w.bits z)⟩
  | bits32 {o : Order} {s b : Bool} {n : Nat} : SameLayout e ⟨o, s, .f32, .float n⟩ ⟨o, s, .uint .w32 b, .uint n⟩
  | bits64 {o : Order} {s b : Bool} {n : Nat} : SameLayout e ⟨o, s, .f64, .float n⟩ ⟨o, s, .uint .w64 b, .uint n⟩
  | oneByte {o : Order} {s a b : Bool} : SameLayout e ⟨o, s, .bool, .bool b⟩ ⟨o, s, .uint .w8 a, .uint (if b then 1 else 0)⟩
  -- the library's types; below a byte-order tag, Borsh writes `Int64` and `int64` differently
  | libBool {o : Order} {s b : Bool} : SameLayout e ⟨o, s, .lib .bool, .bool b⟩ ⟨o, s, .bool, .bool b⟩
  | libInt64 {o : Order} {s a : Bool} {z : Int} : (e = .borsh → o = .le) →
      SameLayout e ⟨o, s, .lib .int64, .int z⟩ ⟨o, s, .int .w64 a, .int z⟩
  | libUint64 {o : Order} {s a : Bool} {n : Nat} : (e = .borsh → o = .le) →
      SameLayout e ⟨o, s, .lib .uint64, .uint n⟩ ⟨o, s, .uint .w64 a, .uint n⟩
  | libFloat64 {o : Order} {s : Bool} {n : Nat} : (e = .borsh → o = .le) →
      SameLayout e ⟨o, s, .lib .jsonFloat64, .float n⟩ ⟨o, s, .f64, .float n⟩
  | lib128 {o : Order} {s : Bool} {lo hi : Nat} {x y : Option Order} {l l' : Lib} :
      l ∈ [Lib.uint128, .int128, .float128] → l' ∈ [Lib.uint128, .int128, .float128] →
      SameLayout e ⟨o, s, .lib l, .u128 lo hi x⟩ ⟨o, s, .lib l', .u128 lo hi y⟩
  | words128 {s a : Bool} {lo hi : Nat} {x : Option Order} : lo < 2 ^ 64 →
      SameLayout e ⟨.le, s, .lib .uint128, .u128 lo hi x⟩ ⟨.le, s, .array 2 (.uint .w64 a), .arr [.uint lo, .uint hi]⟩
  | libString {o : Order} {s : Bool} {b : Bytes} : e ≠ .bin → SameLayout e ⟨o, s, .lib .safeString, .str b⟩ ⟨o, s, .str, .str b⟩
  | libBytes {o : Order} {s : Bool} {b : Option Bytes} :
      SameLayout e ⟨o, s, .lib .hexBytes, .bytes b⟩ ⟨o, s, .lib .safeString, .str (b.getD [])⟩
  -- strings are slices of bytes
  | byteSlice {o : Order} {s a : Bool} {b : Bytes} :
      SameLayout e ⟨o, s, .lib .safeString, .str b⟩ ⟨o, false, .slice (.uint .w8 a), .seq (some (b.map fun x => .uint x.toNat))⟩
  -- pointers
  | pointer {o : Order} {s : Bool} {t : Ty} {v : Val} : (e = .borsh → t.asLib ≠ none) →
      SameLayout e ⟨o, s, .ptr t, .ptr (some v)⟩ ⟨o, s, t, v⟩
  | borshPointer {o : Order} {s : Bool} {t : Ty} {p : Option Val} : e = .borsh → t.asLib = none →
      SameLayout e ⟨o, s, .ptr t, .ptr p⟩ ⟨.le, false, t, p.getD t.zero⟩
  -- nil slices and maps are empty
  | nilSlice {o : Order} {s : Bool} {t : Ty} : SameLayout e ⟨o, s, .slice t, .seq none⟩ ⟨o, s, .slice t, .seq (some [])⟩
  | nilMap {o : Order} {s : Bool} {k t : Ty} : SameLayout e ⟨o, s, .map k t, .map none⟩ ⟨o, s, .map k t, .map (some [])⟩
  -- sequences
  | slice {o o' : Order} {s : Bool} {t u : Ty} {xs ys : List Val} : losesVarint t = false → losesVarint u = false →
      ElemsLayout e t xs u ys → SameLayout e ⟨o, s, .slice t, .seq (some xs)⟩ ⟨o', s, .slice u, .seq (some ys)⟩
  | array {o o' : Order} {s s' : Bool} {n m : Nat} {t u : Ty} {xs ys : List Val} : losesVarint t = false → losesVarint u = false →
      ElemsLayout e t xs u ys → SameLayout e ⟨o, s, .array n t, .arr xs⟩ ⟨o', s', .array m u, .arr ys⟩
  | sizedSlice {o o' : Order} {s' : Bool} {n : Nat} {t : Ty} {xs : List Val} :
      SameLayout e ⟨o, true, .slice t, .seq (some xs)⟩ ⟨o', s', .array n t, .arr xs⟩
  | tuple {o o' : Order} {s s' : Bool} {n : Nat} {t : Ty} {xs : List Val} {names : List Bytes} : losesVarint t = false →
      names.length = xs.length →
      SameLayout e ⟨o, s, .array n t, .arr xs⟩ ⟨o', s', .struct (sameFields t names), .struct xs⟩
  | pairs {o o' : Order} {s : Bool} {k t : Ty} {m : List (Val × Val)} {nk nt : Bytes} :
      SameLayout e ⟨o, s, .map k t, .map (some m)⟩ ⟨o', false, .slice (pairTy nk nt k t), .seq (some ((entries e k m).map pairVal))⟩
  | struct {o o' : Order} {s s' : Bool} {fs gs : Fields} {vs ws : List Val} : recordIn e fs → recordIn e gs →
      FieldsLayout e [] fs vs gs ws → SameLayout e ⟨o, s, .struct fs, .struct vs⟩ ⟨o', s', .struct gs, .struct ws⟩
/-- Elements with the same layout, one by one. -/
inductive ElemsLayout (e : Encoding) : Ty → List Val → Ty → List Val → Prop
  | noElems {t u : Ty} : ElemsLayout e t [] u []
  | elem {t u : Ty} {x y : Val} {xs ys : List Val} : SameLayout e ⟨.le, false, t, x⟩ ⟨.le, false, u, y⟩ →
      ElemsLayout e t xs u ys → ElemsLayout e t (x :: xs) u (y :: ys)
/-- Fields with the same layout; `names` are those whose length has been announced. -/
inductive FieldsLayout (e : Encoding) : List Bytes → Fields → List Val → Fields → List Val → Prop
  | noFields {names : List Bytes} : FieldsLayout e names .nil [] .nil []
  | asIs {names : List Bytes} {fs : Fields} {vs : List Val} : FieldsLayout e names fs vs fs vs
  | swap {names : List Bytes} {fs gs : Fields} {vs ws : List Val} :
      FieldsLayout e names fs vs gs ws → FieldsLayout e names gs ws fs vs
  | chain {names : List Bytes} {fs gs hs : Fields} {vs ws us : List Val} :
      FieldsLayout e names fs vs gs ws → FieldsLayout e names gs ws hs us → FieldsLayout e names fs vs hs us
  -- fields with the same tag, except that the byte order and the name may differ
  | field {names : List Bytes} {m m' : FieldMeta} {t u : Ty} {v w : Val} {fs gs : Fields} {vs ws : List Val} :
      m.tag.skip = false → m'.tag.skip = false → m.exported = true → m'.exported = true →
      m.tag.sizeOf = m'.tag.sizeOf → m.tag.option = m'.tag.option → m.tag.coption = m'.tag.coption →
      ((m.tag.option = true ∨ m.tag.coption = true) → t.isZero v = u.isZero w) →
      SameLayout e ⟨m.tag.order, (announced m names).contains m.name, t, v⟩
        ⟨m'.tag.order, (announced m' names).contains m'.name, u, w⟩ →
      FieldsLayout e (announced m names) fs vs gs ws → FieldsLayout e names (.cons m t fs) (v :: vs) (.cons m' u gs) (w :: ws)
  -- fields of which nothing is written
  | drop {names : List Bytes} {m : FieldMeta} {t : Ty} {v : Val} {fs gs : Fields} {vs ws : List Val} : ignored m →
      FieldsLayout e names fs vs gs ws → FieldsLayout e names (.cons m t fs) (v :: vs) gs ws
  -- an embedded struct is written out
  | embed {name : Bytes} {fs gs hs : Fields} {us vs ws : List Val} : recordIn e fs → announcesNone fs = true →
      us.length = fs.length → FieldsLayout e [] (thenFields fs gs) (us ++ vs) hs ws →
      FieldsLayout e [] (.cons (untagged name) (.struct fs) gs) (.struct us :: vs) hs ws
  -- an optional field of Borsh is an enum
  | option {names : List Bytes} {name name' n0 n1 n2 : Bytes} {t : Ty} {p : Option Val} {fs gs : Fields} {vs ws : List Val} :
      e = .borsh → t.asLib = none → FieldsLayout e names fs vs gs ws →
      FieldsLayout e names (.cons { name := name, tag := { option := true } } (.ptr t) fs) (.ptr p :: vs)
        (.cons (untagged name') (optionTy n0 n1 n2 t) gs) (optionVal t p :: ws)
end

end Verif.Spec
