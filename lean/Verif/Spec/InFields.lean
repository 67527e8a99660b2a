import Verif.Spec.InTurn
import Verif.Spec.Calls
/-!
# Decoding the fields of a struct one after the other

`FieldsInTurn e fs olds xs d d'`: decoding the fields `fs`, which hold `olds`, one after the other gives `xs` and leads from
the decoder `d` to `d'`.
-/
namespace Verif.Spec

/-- What the flags in front of a field say. -/
inductive Presence where
  /-- the value follows -/
  | here
  /-- there is no value -/
  | gone
  /-- Borsh field with both flags: the option is there, the C-option in it is not -/
  | hollow

/-- The bytes `f` are an option flag: any non-zero byte (`bin`: 32-bit word) means that the value follows. -/
def OptionFlag (e : Encoding) (f : Bytes) (there : Bool) : Prop :=
  f.length = (if e = .bin then 4 else 1) ∧ (there = false ↔ ∀ b ∈ f, b = 0)

/-- The bytes `f` are the flag of a C-option: nothing but 0 and 1. -/
def COptionFlag (f : Bytes) (there : Bool) : Prop := f = [if there then 1 else 0, 0, 0, 0]

/-- The flags in front of a field with this tag.  C-options exist in Borsh only. -/
inductive Flags (e : Encoding) (tag : FieldTag) : Bytes → Presence → Prop
  | none (h1 : tag.option = false) (h2 : ¬ (e = .borsh ∧ tag.coption = true)) : Flags e tag [] .here
  | gone {f} (h1 : tag.option = true) (hf : OptionFlag e f false) : Flags e tag f .gone
  | here {f} (h1 : tag.option = true) (h2 : ¬ (e = .borsh ∧ tag.coption = true)) (hf : OptionFlag e f true) : Flags e tag f .here
  | cgone {f} (h1 : tag.option = false) (h2 : e = .borsh) (h3 : tag.coption = true) (hf : COptionFlag f false) : Flags e tag f .gone
  | chere {f} (h1 : tag.option = false) (h2 : e = .borsh) (h3 : tag.coption = true) (hf : COptionFlag f true) : Flags e tag f .here
  | hollow {f g} (h1 : tag.option = true) (h2 : e = .borsh) (h3 : tag.coption = true) (hf : OptionFlag e f true)
      (hg : COptionFlag g false) : Flags e tag (f ++ g) .hollow
  | both {f g} (h1 : tag.option = true) (h2 : e = .borsh) (h3 : tag.coption = true) (hf : OptionFlag e f true)
      (hg : COptionFlag g true) : Flags e tag (f ++ g) .here

/-- `Gone t old x`: a variable of type `t` holding `old` holds `x` after being told that there is no value: the zero value,
except that non-nil pointers to pointers are followed. -/
inductive Gone : Ty → Val → Val → Prop
  | zero {t old} (h : ∀ t' x, t = .ptr (.ptr t') → old ≠ .ptr (some x)) : Gone t old t.zero
  | through {t x y} (h : Gone (.ptr t) x y) : Gone (.ptr (.ptr t)) (.ptr (some x)) (.ptr (some y))

/-- The zero value behind newly allocated pointers. -/
inductive Hollow : Ty → Val → Prop
  | base {t} (h : ∀ t', t ≠ .ptr t') : Hollow t t.zero
  | ptr {t x} (h : Hollow t x) : Hollow (.ptr t) (.ptr (some x))

/-- One field: the flags, then what the flags say. -/
inductive FieldInTurn (e : Encoding) (tag : FieldTag) (t : Ty) (old : Val) : Val → Dec → Dec → Prop
  | here {f rest cur pre x d'} (hf : Flags e tag f .here) (h : decode t old (decAt e cur (pre ++ f) rest) = (.ok x, d')) :
      FieldInTurn e tag t old x (decAt e cur pre (f ++ rest)) d'
  | gone {f rest cur pre x} (hf : Flags e tag f .gone) (h : Gone t old x) :
      FieldInTurn e tag t old x (decAt e cur pre (f ++ rest)) (decAt e (some .le) (pre ++ f) rest)
  | hollow {f rest cur pre x} (hf : Flags e tag f .hollow) (h : Hollow t x) :
      FieldInTurn e tag t old x (decAt e cur pre (f ++ rest)) (decAt e (some .le) (pre ++ f) rest)

/-- A field that is left as it is: skipped, unexported, or a `binary_extension` with nothing unread for it. -/
def LeftAlone (m : FieldMeta) (d : Dec) : Prop :=
  m.tag.skip = true ∨ m.exported = false ∨ m.tag.binExt = true ∧ left d = 0

/-- In Borsh a field whose type is one of the library's, or a pointer to one, is decoded by the type's own method into a new
variable, and its tag is not looked at. -/
inductive FieldsInTurn (e : Encoding) : Fields → List Val → List Val → Dec → Dec → Prop
  | nil (d : Dec) : FieldsInTurn e .nil [] [] d d
  | left {m t fs old olds xs d d'} (h : LeftAlone m d) (rest : FieldsInTurn e fs olds xs d d') :
      FieldsInTurn e (.cons m t fs) (old :: olds) (old :: xs) d d'
  | own {m l fs old olds x xs d d1 d'} (h : ¬ LeftAlone m d) (he : e = .borsh) (hu : unmarshalLib l l.zero d = (.ok x, d1))
      (rest : FieldsInTurn e fs olds xs d1 d') : FieldsInTurn e (.cons m (.lib l) fs) (old :: olds) (x :: xs) d d'
  | ownPtr {m l fs old olds x xs d d1 d'} (h : ¬ LeftAlone m d) (he : e = .borsh) (hu : unmarshalLib l l.zero d = (.ok x, d1))
      (rest : FieldsInTurn e fs olds xs d1 d') :
      FieldsInTurn e (.cons m (.ptr (.lib l)) fs) (old :: olds) (.ptr (some x) :: xs) d d'
  | field {m t fs old olds x xs d d1 d'} (h : ¬ LeftAlone m d) (ht : e = .borsh → ∀ l, t ≠ .lib l ∧ t ≠ .ptr (.lib l))
      (hf : FieldInTurn e m.tag t old x d d1) (rest : FieldsInTurn e fs olds xs d1 d') :
      FieldsInTurn e (.cons m t fs) (old :: olds) (x :: xs) d d'

/-- No field has the tag `big` or announces the length of another one. -/
def plainTags : Fields → Bool
  | .nil => true
  | .cons m _ fs => m.tag.order == .le && m.tag.sizeOf == [] && plainTags fs

end Verif.Spec
