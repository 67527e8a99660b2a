import Verif.Model.Encoder
/-! Observable notions used to state properties of encoder and decoder calls. -/
namespace Verif.Spec

/-- The writer behind the encoder accepts everything. -/
def NoFail (s : Enc) : Prop := ∀ history chunk, s.sink history chunk = true

/-- The call `w` on encoder `s` succeeds and hands exactly `bs` to the writer; nothing else changes. -/
def Emits (w : EM Unit) (s : Enc) (bs : Bytes) : Prop :=
  ∃ s', w s = (.ok (), s') ∧ s'.log.flatten = s.log.flatten ++ bs ∧ s'.count = s.count + bs.length ∧
    s'.enc = s.enc ∧ s'.cur = s.cur ∧ s'.sink = s.sink

/-- A decoder over the buffer `pre ++ post` whose cursor stands between the two. -/
def decAt (e : Encoding) (cur : Option Order) (pre post : Bytes) : Dec :=
  { data := pre ++ post, pos := pre.length, cur := cur, enc := e }

/-- The read `r` turns the bytes `bs` into `v`, wherever they sit and whatever follows, and stops right after them. -/
def Consumes {α : Type} (e : Encoding) (r : DM α) (bs : Bytes) (v : α) : Prop :=
  ∀ cur pre post, r (decAt e cur pre (bs ++ post)) = (.ok v, decAt e cur (pre ++ bs) post)

/-- `w` writes some `n` bytes from which `r` reads back `v`. -/
def RoundTrip {α : Type} (e : Encoding) (w : EM Unit) (r : DM α) (n : Nat) (v : α) : Prop :=
  ∃ bs : Bytes, bs.length = n ∧ (∀ s : Enc, s.enc = e → NoFail s → Emits w s bs) ∧ Consumes e r bs v

/-- cursor inside the buffer -/
def Inside (d : Dec) : Prop := 0 ≤ d.pos ∧ d.pos ≤ (d.data.length : Int)

/-- bytes left to read -/
def left (d : Dec) : Int := (d.data.length : Int) - d.pos

end Verif.Spec
