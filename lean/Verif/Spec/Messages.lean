import Verif.Model.Messages
import Verif.Spec.Calls
/-!
# What C108 asks of a message that says how many bytes are missing
-/
namespace Verif.Spec

/-- The number of bytes that are missing, according to a message. -/
def missing : Msg → Option Int
  | .required need left => some (need - left)
  | .varlen _ n => some n
  | .missing n => some n
  | .skip count left => some (count - left)
  | .plain _ => none
  | .within m => missing m

/-- The same decoder, with more bytes at the end of its buffer. -/
def longer (d : Dec) (ext : Bytes) : Dec := { d with data := d.data ++ ext }

/-- The class of the error only. -/
def TRes.plain {α : Type} : TRes α → Res α
  | .ok a => .ok a
  | .err m => .err m.cls
  | .panic => .panic

/-- A call tells the truth about what is missing (`e` is the encoding of the decoder, whose cursor is inside the buffer):
* it moves the cursor forwards, inside the buffer;
* if it succeeds, it does the same with more bytes behind;
* if it fails and says that `k` bytes are missing, then `k` is positive; with fewer than `k` bytes more it fails at the same place and says how many are
  missing then; with `k` bytes more or still more it gets past that place. -/
structure Tells {α : Type} (e : Encoding) (m : TM α) : Prop where
  stays : ∀ d, Inside d → d.enc = e → Inside (m d).2 ∧ d.pos ≤ (m d).2.pos ∧ (m d).2.data = d.data ∧ (m d).2.enc = e
  more : ∀ d a ext, Inside d → d.enc = e → (m d).1 = .ok a → m (longer d ext) = (.ok a, longer (m d).2 ext)
  says : ∀ d x k, Inside d → d.enc = e → (m d).1 = .err x → missing x = some k →
    0 < k ∧ ∀ ext : Bytes,
      (ext.length < k → ∃ x', m (longer d ext) = (.err x', longer (m d).2 ext) ∧ missing x' = some (k - ext.length)) ∧
      (k ≤ ext.length → (m d).2.pos < (m (longer d ext)).2.pos)

/-- `m` is `r` with numbers in its messages. -/
def Numbered {α : Type} (m : TM α) (r : DM α) : Prop := ∀ d, r d = (TRes.plain (m d).1, (m d).2)

end Verif.Spec
