/-!
# Basic notions shared by the whole model

Go functions that return `(T, error)` and mutate a receiver are modelled as
`σ → Res T × σ`.  `Res` separates an ordinary error return from a run-time panic.
-/
namespace Verif

/-- Byte strings (`[]byte`, and Go `string`, which is an immutable byte string). -/
abbrev Bytes := List UInt8

/-- Classes of error values.  Messages are not modelled; wrapping (`fmt.Errorf("…%w"/"%s")`)
keeps the class of the wrapped error. -/
inductive Err where
  /-- `io.ErrUnexpectedEOF` -/
  | eof
  /-- `io.ErrShortBuffer` (decoder.go:308) -/
  | shortBuffer
  /-- "required [n] bytes, remaining [m]" and friends -/
  | notEnough
  /-- "invalid length n" / "n not valid" (decoder.go:286,301,354) -/
  | invalidLen
  /-- `ErrVarIntBufferSize` (decoder.go:157) -/
  | varint
  /-- "length out of range" (compact-u16.go:28) -/
  | lenRange
  /-- compact-u16.go:56,97 "alias" -/
  | alias
  /-- compact-u16.go:61,97 "byte three continues" -/
  | continues
  /-- compact-u16.go:72,76,107,111 invalid size / length -/
  | badCompact
  /-- NaN refused (encoder.go:305,323; decoder.go:572,592) -/
  | nan
  /-- invalid C-option flag (decoder.go:399) -/
  | coption
  /-- "unsupported type" -/
  | unsupported
  /-- "complex enum too large" -/
  | enumTooLarge
  /-- `InvalidDecoderError` (error.go:21) -/
  | invalidDecoder
  /-- the underlying `io.Writer` returned an error -/
  | write
  /-- SetPosition outside of buffer (decoder.go:667) -/
  | badPos
  /-- no known type for a variant id (variant.go:315) -/
  | unknownVariant
  /-- text (hex / decimal / JSON) that does not parse -/
  | parse
  /-- "invalid byte order" (encoder.go:275,293) -/
  | byteOrder
  deriving DecidableEq, Repr

/-- Outcome of a call: normal return, returned error, or run-time panic. -/
inductive Res (α : Type) where
  | ok (a : α)
  | err (e : Err)
  | panic
  deriving DecidableEq, Repr

/-- A stateful call. -/
def M (σ α : Type) := σ → Res α × σ

namespace M
variable {σ α β : Type}

def pure (a : α) : M σ α := fun s => (.ok a, s)

def bind (m : M σ α) (f : α → M σ β) : M σ β := fun s =>
  match m s with
  | (.ok a, s') => f a s'
  | (.err e, s') => (.err e, s')
  | (.panic, s') => (.panic, s')

instance : Monad (M σ) where
  pure := pure
  bind := bind

/-- `return …, err` -/
def err (e : Err) : M σ α := fun s => (.err e, s)
/-- a run-time panic -/
def panic : M σ α := fun s => (.panic, s)
/-- lift a pure outcome -/
def lift (r : Res α) : M σ α := fun s => (r, s)
def get : M σ σ := fun s => (.ok s, s)
def modify (f : σ → σ) : M σ Unit := fun s => (.ok (), f s)

@[simp] theorem pure_apply (a : α) (s : σ) : (Pure.pure a : M σ α) s = (.ok a, s) := rfl
@[simp] theorem err_apply (e : Err) (s : σ) : (err e : M σ α) s = (.err e, s) := rfl
@[simp] theorem panic_apply (s : σ) : (panic : M σ α) s = (.panic, s) := rfl
@[simp] theorem lift_apply (r : Res α) (s : σ) : (lift r : M σ α) s = (r, s) := rfl
@[simp] theorem get_apply (s : σ) : (get : M σ σ) s = (.ok s, s) := rfl
@[simp] theorem modify_apply (f : σ → σ) (s : σ) : (modify f : M σ Unit) s = (.ok (), f s) := rfl

theorem bind_apply (m : M σ α) (f : α → M σ β) (s : σ) :
    (m >>= f) s = match m s with
      | (.ok a, s') => f a s'
      | (.err e, s') => (.err e, s')
      | (.panic, s') => (.panic, s') := rfl

theorem bind_ok {m : M σ α} {f : α → M σ β} {s s' : σ} {a : α} (h : m s = (.ok a, s')) :
    (m >>= f) s = f a s' := by simp [bind_apply, h]
theorem bind_err {m : M σ α} {f : α → M σ β} {s s' : σ} {e : Err} (h : m s = (.err e, s')) :
    (m >>= f) s = (.err e, s') := by simp [bind_apply, h]
theorem bind_panic {m : M σ α} {f : α → M σ β} {s s' : σ} (h : m s = (.panic, s')) :
    (m >>= f) s = (.panic, s') := by simp [bind_apply, h]

end M

/-- `for i := 0; i < n; i++ { x, err := f(); …; out = append(out, x) }` -/
def repeatM {σ α : Type} (f : M σ α) : Nat → M σ (List α)
  | 0 => Pure.pure []
  | n + 1 => do
    let a ← f
    let as ← repeatM f n
    Pure.pure (a :: as)

/-- `for _, x := range xs { if err := f(x); err != nil { return err } }` -/
def forEachM {σ α : Type} (f : α → M σ Unit) : List α → M σ Unit
  | [] => Pure.pure ()
  | a :: as => do
    f a
    forEachM f as

/-- `for i := 0; i < n; i++ { f(v.Index(i)) }` where `Index` panics out of range. -/
def forIndexM {σ α : Type} (f : α → M σ Unit) : Nat → List α → M σ Unit
  | 0, _ => Pure.pure ()
  | _ + 1, [] => M.panic
  | n + 1, a :: as => do
    f a
    forIndexM f n as

end Verif
